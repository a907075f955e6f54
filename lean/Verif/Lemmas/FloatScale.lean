import Verif.Lemmas.FloatArith
import Verif.Lemmas.Evolution

/-!
# Lemmas: the scale space with floating point numbers
-/

namespace Verif.Akaze

open FloatOps FloatCast
open Verif.Bicubic (Flt)

variable {F D : Type} [FloatOps F] [FloatOps D] [FloatCast F D] {I : Ieee F} {J : Ieee D}

theorem mapM_ok {α β : Type _} {f : α → Option β} : ∀ {l : List α}, (∀ a ∈ l, ∃ b, f a = some b) →
    ∃ r, l.mapM f = some r
  | [], _ => ⟨[], rfl⟩
  | a :: l, h => by
    obtain ⟨b, hb⟩ := h a List.mem_cons_self
    obtain ⟨r, hr⟩ := mapM_ok (fun a ha => h a (List.mem_cons_of_mem _ ha))
    exact ⟨b :: r, by rw [List.mapM_cons, hb, hr]; rfl⟩

/-! ## Time steps -/

omit [FloatOps F] [FloatCast F D] in
theorem ffedSteps_total {time tauMax : D} (h1 : fstepCount (time / 1) tauMax ≠ 1)
    (h2 : fstepCount (time / 1) tauMax < 2 ^ 32 - 1) : ∃ l, ffedSteps time tauMax = some l := by
  generalize hn : fstepCount (time / 1) tauMax = n at *
  have hlt : n * (n + 1) < 2 ^ 64 := by
    have : n * (n + 1) ≤ (2 ^ 32 - 1) * (2 ^ 32 - 1) := Nat.mul_le_mul (by omega) (by omega)
    omega
  unfold ffedSteps
  simp only [hn]
  rw [if_neg (by omega)]
  obtain ⟨hp1, hp2⟩ := nextPrime_spec n
  by_cases h0 : n = 0
  · subst h0
    exact ⟨[], by simp [collectIndices]⟩
  have hperm := usable_perm hp2 (n := n) (kappa := n / 2) (by omega) (by omega) (by omega)
  have hc := collect_usable hp2 (n := n) (kappa := n / 2) (by omega) (by omega) n 0
    (by rw [hperm.length_eq, List.length_range])
  rw [hc, Option.bind_some]
  obtain ⟨l, hl⟩ := mapM_ok (f := fun i => ((List.range n).map
    (ftauStep n (3 * (time / 1) / (tauMax * ((n * (n + 1) : Nat) : D))) tauMax))[i]?) (l := usable n (n / 2) (nextPrime n) 0)
    (by
      intro i hi
      have := List.mem_range.mp (hperm.subset hi)
      exact ⟨_, List.getElem?_eq_getElem (by simpa using this)⟩)
  exact ⟨l, hl⟩

/-- Each level is in the octave of the one before or the next. -/
def Ladder (P : FLevel D → Prop) : Nat → List (FLevel D) → Prop
  | _, [] => True
  | o, l :: ls => (l.octave = o ∨ l.octave = o + 1) ∧ P l ∧ Ladder P l.octave ls

omit [FloatOps D] in
theorem ladder_of {P : FLevel D → Prop} : ∀ {ls : List (FLevel D)} {l : FLevel D},
    (l :: ls).IsChain (fun a b => b.octave = a.octave ∨ b.octave = a.octave + 1) → (∀ x ∈ ls, P x) →
      Ladder P l.octave ls
  | [], _, _, _ => trivial
  | b :: ls, l, hc, hp => by
    rw [List.isChain_cons_cons] at hc
    exact ⟨hc.1, hp b List.mem_cons_self, ladder_of hc.2 (fun x hx => hp x (List.mem_cons_of_mem _ hx))⟩

omit [FloatOps F] [FloatCast F D] in
theorem fsetSteps_total {P : FLevel D → Prop}
    (hP : ∀ l steps, P l → P { l with steps := steps }) : ∀ {ls : List (FLevel D)} {l : FLevel D} {o : Nat},
    (l :: ls).IsChain (fun a b => fstepCount ((b.etime - a.etime) / 1) (lit (1 / 4)) ≠ 1 ∧
      fstepCount ((b.etime - a.etime) / 1) (lit (1 / 4)) < 2 ^ 32 - 1) → Ladder P o ls →
      ∃ out, fsetSteps l.etime ls = some out ∧ Ladder P o out
  | [], _, _, _, _ => ⟨[], rfl, trivial⟩
  | b :: ls, l, o, hc, hl => by
    rw [List.isChain_cons_cons] at hc
    obtain ⟨out, e, ho⟩ := fsetSteps_total hP (o := b.octave) hc.2 hl.2.2
    obtain ⟨steps, es⟩ := ffedSteps_total (time := b.etime - l.etime) (tauMax := lit (1 / 4)) hc.1.1
      hc.1.2
    refine ⟨{ b with steps := steps } :: out, ?_, hl.1, hP _ _ hl.2.1, ho⟩
    unfold fsetSteps
    simp only [es, e, Option.bind_eq_bind, Option.bind_some]; rfl

/-! ## Levels -/

omit [FloatOps F] [FloatOps D] [FloatCast F D] in
theorem flevelNumbers_eq (s : FSettings D) (w h : Nat) :
    flevelNumbers s w h = levelNumbers ⟨s.numSublevels, s.maxOctave, 0, 0, 0⟩ w h := rfl

/-- What is known of a level. -/
structure LevelOk (J : Ieee D) (df : D) (w h : Nat) (l : FLevel D) : Prop where
  large : AtLeast w h 40 l.octave
  size : J.Between (l.esigma * df) (2 ^ l.octave) (2 ^ 19)

omit [FloatOps F] [FloatCast F D] in
/-- The levels one by one. -/
theorem plainLevels_eq {s : FSettings D} (hn : 0 < s.numSublevels) (w h : Nat) : ∃ full extra,
    Octaves s.maxOctave w h full extra ∧ plainLevels s w h = (List.range (full * s.numSublevels + extra)).map
      (fun i => fnewLevel s (i / s.numSublevels) (i % s.numSublevels)) := by
  obtain ⟨full, extra, ho, e⟩ := levels_upto ⟨s.numSublevels, s.maxOctave, 0, 0, 0⟩ hn w h s.maxOctave
  refine ⟨full, extra, ho, ?_⟩
  unfold plainLevels
  rw [flevelNumbers_eq]
  unfold levelNumbers
  rw [e, List.map_map]
  rfl

omit [FloatOps F] [FloatCast F D] in
theorem fallocate_total {s : FSettings D} (hu : FUsable J s) {w h : Nat} (hw : 40 ≤ w) (hh : 40 ≤ h)
    (hl : LevelsOk J s w h) : ∃ l ls, fallocate s w h = some (l :: ls) ∧ l.octave = 0 ∧
      LevelOk J s.derivativeFactor w h l ∧ Ladder (LevelOk J s.derivativeFactor w h) 0 ls := by
  obtain ⟨full, extra, ho, hlist⟩ := plainLevels_eq hu.sublevels w h
  have hpos : 0 < full * s.numSublevels + extra := by
    by_contra h0
    have h1 : full * s.numSublevels = 0 := by omega
    have h2 : full = 0 := (Nat.mul_eq_zero.1 h1).resolve_right hu.sublevels.ne'
    have h3 : ¬ extra = 1 := by omega
    rw [ho.one, h2] at h3
    exact h3 ⟨hu.octaves, by unfold AtLeast; omega⟩
  have hbig : ∀ l ∈ plainLevels s w h, LevelOk J s.derivativeFactor w h l := by
    intro l hm
    refine ⟨?_, hl.sizes l hm⟩
    rw [hlist, List.mem_map] at hm
    obtain ⟨i, hi, rfl⟩ := hm
    rw [List.mem_range] at hi
    show AtLeast w h 40 (i / s.numSublevels)
    by_cases hf : i / s.numSublevels < full
    · exact (ho.all _ hf).weaken (by omega)
    · have h1 : full * s.numSublevels ≤ i := by
        have := Nat.div_mul_le_self i s.numSublevels
        exact le_trans (Nat.mul_le_mul_right _ (by omega)) this
      have hx : extra = 1 := by have := ho.atMost; omega
      have h2 : i = full * s.numSublevels := by omega
      rw [h2, Nat.mul_div_cancel _ hu.sublevels]
      exact (ho.one.1 hx).2
  have hchain : (plainLevels s w h).IsChain (fun a b => b.octave = a.octave ∨ b.octave = a.octave + 1) := by
    rw [hlist, List.isChain_map]
    rw [List.isChain_iff_getElem]
    intro i hi
    simp only [List.getElem_range]
    show (i + 1) / s.numSublevels = i / s.numSublevels ∨ (i + 1) / s.numSublevels = i / s.numSublevels + 1
    rw [Nat.succ_div]
    split <;> omega
  obtain ⟨k, hk⟩ : ∃ k, full * s.numSublevels + extra = k + 1 := ⟨_, (Nat.succ_pred_eq_of_ne_zero hpos.ne').symm⟩
  obtain ⟨l, ls, hls⟩ : ∃ l ls, plainLevels s w h = l :: ls := by
    rw [hlist, hk, List.range_succ_eq_map]
    exact ⟨_, _, rfl⟩
  have hl0 : l.octave = 0 := by
    have : (plainLevels s w h)[0]? = some l := by rw [hls]; rfl
    rw [hlist, hk] at this
    simp at this
    rw [← this]; rfl
  have ht := hl.times
  rw [hls] at hbig hchain ht
  have hlad := ladder_of hchain (fun x hx => hbig x (List.mem_cons_of_mem _ hx))
  obtain ⟨out, eo, hout⟩ := fsetSteps_total (P := LevelOk J s.derivativeFactor w h) (fun l st h => ⟨h.1, h.2⟩) ht hlad
  refine ⟨l, out, ?_, hl0, hbig l List.mem_cons_self, hl0 ▸ hout⟩
  unfold plainLevels at hls
  unfold fallocate
  rw [hls]
  simp only [eo, Option.bind_eq_bind, Option.bind_some]; rfl

/-! ## Images -/

theorem fpmG2_ofSize {lx ly : Img F} {w h : Nat} (hx : OfSize lx w h) (hy : OfSize ly w h) (k : D) :
    ∃ out, fpmG2 lx ly k = some out ∧ OfSize out w h := by
  unfold fpmG2
  rw [if_neg (by rw [hx.2.1, hx.2.2, hy.2.1, hy.2.2]; simp)]
  simp only []
  rw [hx.2.1, hx.2.2]
  refine ofFnM_ofSize (fun x y h1 h2 => ?_)
  obtain ⟨a, ha⟩ := hx.get h1 h2
  obtain ⟨b, hb⟩ := hy.get h1 h2
  exact ⟨_, by simp only [ha, hb, Option.bind_eq_bind, Option.bind_some]; rfl⟩

/-- The images of a level have the size of their octave. -/
def ScaleOk (J : Ieee D) (df : D) (w h : Nat) (s : FScale F D) : Prop :=
  LevelOk J df w h s.level ∧ OfSize s.lt (w / 2 ^ s.level.octave) (h / 2 ^ s.level.octave) ∧
    OfSize s.lsmooth (w / 2 ^ s.level.octave) (h / 2 ^ s.level.octave)

theorem AtLeast.sides {w h n o : Nat} (ha : AtLeast w h n o) : n ≤ w / 2 ^ o ∧ n ≤ h / 2 ^ o := by
  have := div_atLeast.2 ha
  omega

theorem flaterScales_total (I : Ieee F) {df : D} {w h : Nat} : ∀ {ls : List (FLevel D)} {o : Nat} {before : Img F} (contrast : D),
    Ladder (LevelOk J df w h) o ls → OfSize before (w / 2 ^ o) (h / 2 ^ o) → 40 ≤ w / 2 ^ o → 40 ≤ h / 2 ^ o →
    ∃ out, flaterScales contrast o before ls = some out ∧ ∀ s ∈ out, ScaleOk J df w h s
  | [], _, _, _, _, _, _, _ => ⟨[], rfl, by simp⟩
  | l :: ls, o, before, contrast, hl, hb, h1, h2 => by
    obtain ⟨hoct, hok, hrest⟩ := hl
    obtain ⟨g1, g2⟩ := hok.large.sides
    have hstart : ∃ start, (if o < l.octave then halfSize before else some before) = some start ∧
        OfSize start (w / 2 ^ l.octave) (h / 2 ^ l.octave) := by
      rcases hoct with e | e
      · rw [if_neg (by omega), e]; exact ⟨before, rfl, hb⟩
      · rw [if_pos (by omega), e]
        obtain ⟨out, e1, e2⟩ := halfSize_ofSize hb (by omega) (by omega)
        refine ⟨out, e1, ?_⟩
        rw [pow_succ, ← Nat.div_div_eq_div_mul, ← Nat.div_div_eq_div_mul]
        exact e2
    obtain ⟨start, es, hs⟩ := hstart
    obtain ⟨sm, em, hm⟩ := fblur_one I hs (by omega) (by omega)
    obtain ⟨⟨lx, e1, hx⟩, ⟨ly, e2, hy⟩⟩ := simpleScharr_ofSize hm (by omega) (by omega)
    obtain ⟨fl, ef, hf⟩ := fpmG2_ofSize hx hy (if o < l.octave then contrast * lit (3 / 4) else contrast)
    obtain ⟨lt, el, hlt⟩ := diffuse_ofSize hf (by omega) (by omega) (l.steps.map narrow) hs
    obtain ⟨out, eo, ho⟩ := flaterScales_total I (if o < l.octave then contrast * lit (3 / 4) else contrast) hrest hlt g1 g2
    refine ⟨⟨l, lt, sm⟩ :: out, ?_, ?_⟩
    · unfold flaterScales
      by_cases hc : o < l.octave
      · simp only [if_pos hc] at es ef eo ⊢
        simp only [es, em, e1, e2, ef, el, eo, Option.bind_eq_bind, Option.bind_some]; rfl
      · simp only [if_neg hc] at es ef eo ⊢
        obtain rfl := Option.some.inj es
        simp only [em, e1, e2, ef, el, eo, Option.bind_eq_bind, Option.bind_some]; rfl
    · intro s hs'
      rcases List.mem_cons.1 hs' with rfl | hs'
      · exact ⟨hok, hlt, hm⟩
      · exact ho s hs'

theorem fcreateScaleSpace_total (C : IeeeCast I J) {s : FSettings D} (hu : FUsable J s) {image : Img F} {w h : Nat}
    (hi : OfSize image w h) (hw : 40 ≤ w) (hh : 40 ≤ h) {l : FLevel D} {ls : List (FLevel D)} (h0 : l.octave = 0)
    (hl : LevelOk J s.derivativeFactor w h l) (hls : Ladder (LevelOk J s.derivativeFactor w h) 0 ls) :
    ∃ out, fcreateScaleSpace s (l :: ls) image = some out ∧ ∀ x ∈ out, ScaleOk J s.derivativeFactor w h x := by
  obtain ⟨b, eb, b1, b2⟩ := hu.base
  have hr : I.Between (narrow s.baseScale) (1 / 2 ^ 20) (2 ^ 20) := by
    unfold Ieee.Between
    rw [C.narrow, eb]
    exact rnd_between (exact_dyadic 1 20 (by norm_num) (by norm_num) (by norm_num))
      (exact_dyadic (2 ^ 20) 0 (by norm_num) (by norm_num) (by norm_num)) b1 b2
  obtain ⟨r, er, r1, r2⟩ := hr
  obtain ⟨lt, el, hlt⟩ := fblur_ofSize hi (by omega) (by omega) er (lt_of_lt_of_le (by positivity) r1) r2
  obtain ⟨k, ek⟩ := fcontrastFactor_total C hi (by omega) (by omega) hu.bins hu.bins_small s.contrastPercentile
  obtain ⟨out, eo, ho⟩ := flaterScales_total I (df := s.derivativeFactor) (w := w) (h := h) (o := 0) k hls
    (by simpa using hlt) (by simpa using hw) (by simpa using hh)
  refine ⟨⟨l, lt, lt⟩ :: out, ?_, ?_⟩
  · unfold fcreateScaleSpace
    simp only [el, ek, h0, eo, Option.bind_eq_bind, Option.bind_some]; rfl
  · intro x hx
    rcases List.mem_cons.1 hx with rfl | hx
    · exact ⟨hl, by simpa [h0] using hlt, by simpa [h0] using hlt⟩
    · exact ho x hx

/-! ## Detector response -/

theorem fscharr_ofSize {image : Img F} {w h sigma : Nat} (hi : OfSize image w h) (hw : 0 < w) (hh : 0 < h)
    (h1 : 1 ≤ sigma) (h2 : sigma ≤ 2 ^ 20) :
    (∃ out, fscharrHorizontal D image sigma = some out ∧ OfSize out w h) ∧
      ∃ out, fscharrVertical D image sigma = some out ∧ OfSize out w h := by
  by_cases hs : sigma = 1
  · unfold fscharrHorizontal fscharrVertical
    rw [if_pos hs, if_pos hs]
    exact simpleScharr_ofSize hi hw hh
  · have hc : ¬ (sigma = 0 ∨ 2 ^ 32 ≤ 3 + 2 * (sigma - 1)) := by omega
    unfold fscharrHorizontal fscharrVertical
    rw [if_neg hs, if_neg hs]
    unfold fscharrMain fscharrOff
    rw [if_neg hc, if_neg hc]
    simp only [Option.bind_eq_bind, Option.bind_some]
    constructor <;> refine separableFilter_ofSize hi hw hh ?_ ?_ <;>
    · simp only [List.length_set, List.length_replicate]; omega

/-- What is known of a level with derivatives and response. -/
structure DetOk (J : Ieee D) (df : D) (w h : Nat) (l : FDetLevel F D) : Prop where
  large : AtLeast w h 40 l.octave
  size : J.Between (l.esigma * df) (2 ^ l.octave) (2 ^ 19)
  lt : OfSize l.lt (w / 2 ^ l.octave) (h / 2 ^ l.octave)
  lx : OfSize l.lx (w / 2 ^ l.octave) (h / 2 ^ l.octave)
  ly : OfSize l.ly (w / 2 ^ l.octave) (h / 2 ^ l.octave)
  ldet : OfSize l.ldet (w / 2 ^ l.octave) (h / 2 ^ l.octave)

theorem octave_small {w h o : Nat} (ha : AtLeast w h 40 o) (hw : w ≤ 2 ^ 22) : o ≤ 16 := by
  by_contra hc
  have h1 : 2 ^ 17 ≤ 2 ^ o := Nat.pow_le_pow_right (by norm_num) (by omega)
  have := ha.1
  omega

theorem val_power {o : Nat} (ho : o ≤ 16) : I.val ((2 ^ o : Nat) : F) = .num (2 ^ o) := by
  have h1 : 2 ^ o ≤ 2 ^ 16 := Nat.pow_le_pow_right (by norm_num) ho
  have := val_nat (I := I) (n := 2 ^ o) (by omega)
  rw [this]; push_cast; rfl

theorem exact_power {o : Nat} (ho : o ≤ 24) : I.Exact (2 ^ o) := by
  have h1 : 2 ^ o ≤ 2 ^ 24 := Nat.pow_le_pow_right (by norm_num) ho
  have := exact_nat (I := I) h1
  push_cast at this; exact this

theorem fdetLevel_total {df : D} {w h : Nat} (hw : w ≤ 2 ^ 22) {s : FScale F D} (hs : ScaleOk J df w h s) :
    ∃ l, fdetLevel df s = some l ∧ DetOk J df w h l := by
  obtain ⟨⟨hl, hz⟩, h1, h2⟩ := hs
  have ho := octave_small hl hw
  obtain ⟨g1, g2⟩ := hl.sides
  have hq : J.Between (s.level.esigma * df / ((2 ^ s.level.octave : Nat) : D)) 1 (2 ^ 19) := by
    refine hz.div (val_power ho) (by positivity) exact_one (exact_power (by norm_num)) (by simp) ?_
    have : (1 : ℝ) ≤ 2 ^ s.level.octave := one_le_pow₀ (by norm_num)
    linarith
  obtain ⟨n, en, n1, n2⟩ := hq.round
  have n1' : 1 ≤ n := by
    have := roundAway_int 1
    push_cast at this; omega
  have n2' : n ≤ 2 ^ 19 := by
    have := roundAway_int (2 ^ 19)
    rw [show (((2 ^ 19 : ℤ)) : ℝ) = 2 ^ 19 by norm_num] at this
    omega
  have hsig : toU32 (fedge df s.level.octave s.level.esigma) = n.toNat := by
    unfold toU32 fedge
    rw [toNat_of_val en (by omega)]
    omega
  obtain ⟨⟨lx, e1, hx⟩, ⟨ly, e2, hy⟩⟩ := fscharr_ofSize (D := D) (sigma := n.toNat) h2 (by omega) (by omega) (by omega) (by omega)
  obtain ⟨⟨lxx, e3, hxx⟩, ⟨lxy, e4, hxy⟩⟩ := fscharr_ofSize (D := D) (sigma := n.toNat) hx (by omega) (by omega) (by omega) (by omega)
  obtain ⟨-, ⟨lyy, e5, hyy⟩⟩ := fscharr_ofSize (D := D) (sigma := n.toNat) hy (by omega) (by omega) (by omega) (by omega)
  obtain ⟨ld, e6, hd⟩ := ofFnM_ofSize (K := F) (w := w / 2 ^ s.level.octave) (h := h / 2 ^ s.level.octave)
    (g := fun x y => do
      let a ← lxx.get x y
      let b ← lyy.get x y
      let c ← lxy.get x y
      pure ((a * b - c * c) * (narrow (fedge df s.level.octave s.level.esigma * fedge df s.level.octave s.level.esigma *
        (fedge df s.level.octave s.level.esigma * fedge df s.level.octave s.level.esigma)) : F)))
    (fun x y a1 a2 => by
      obtain ⟨a, ha⟩ := hxx.get a1 a2
      obtain ⟨b, hb⟩ := hyy.get a1 a2
      obtain ⟨c, hc⟩ := hxy.get a1 a2
      exact ⟨_, by simp only [ha, hb, hc, Option.bind_eq_bind, Option.bind_some]; rfl⟩)
  refine ⟨⟨s.level.octave, s.level.esigma, s.lt, lx, ly, ld⟩, ?_, hl, hz, h1, hx, hy, hd⟩
  unfold fdetLevel
  simp only [hsig, e1, e2, e3, e4, e5, Option.bind_eq_bind, Option.bind_some]
  rw [if_neg (by rw [hxx.2.1, hxx.2.2, hyy.2.1, hyy.2.2, hxy.2.1, hxy.2.2]; simp), hxx.2.1, hxx.2.2]
  simp only [Option.bind_eq_bind] at e6
  rw [e6]; rfl

end Verif.Akaze
