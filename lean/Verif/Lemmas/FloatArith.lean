import Verif.Lemmas.FloatSizes
import Verif.Spec.FloatExtract
import Verif.Lemmas.Contrast

/-!
# Lemmas: floating point numbers between numbers with few digits
-/

namespace Verif.Akaze

open FloatOps FloatCast
open Verif.Bicubic (Flt)

variable {F : Type} [FloatOps F] (I : Ieee F)

/-- The number is not changed by rounding. -/
def Ieee.Exact (x : ℝ) : Prop := I.rnd x = .num x

variable {I}

theorem le_num {a : Flt} {x y : ℝ} (h1 : (Flt.num x).Le a) (h2 : a.Le (.num y)) : ∃ z, a = .num z ∧ x ≤ z ∧ z ≤ y := by
  rcases a with _ | s | z
  · exact absurd h1 (by simp [Flt.Le, Flt.Ge])
  · cases s
    · exact absurd h2 (by simp [Flt.Le, Flt.Ge])
    · exact absurd h1 (by simp [Flt.Le, Flt.Ge])
  · exact ⟨z, rfl, h1, h2⟩

theorem rnd_between {x lo hi : ℝ} (hl : I.Exact lo) (hh : I.Exact hi) (h1 : lo ≤ x) (h2 : x ≤ hi) :
    ∃ y, I.rnd x = .num y ∧ lo ≤ y ∧ y ≤ hi := by
  have a := I.rnd_mono lo x h1
  have b := I.rnd_mono x hi h2
  rw [show I.rnd lo = .num lo from hl] at a
  rw [show I.rnd hi = .num hi from hh] at b
  exact le_num a b

theorem exact_int {n : ℤ} (h : |n| ≤ 2 ^ 24) : I.Exact n := by
  have := I.rnd_dyadic n 0 h (by norm_num)
  simpa [Ieee.Exact] using this

theorem exact_nat {n : Nat} (h : n ≤ 2 ^ 24) : I.Exact n := by
  have := exact_int (I := I) (n := n) (by rw [abs_of_nonneg (by positivity)]; exact_mod_cast h)
  simpa using this

theorem exact_dyadic {x : ℝ} (n : ℤ) (k : Nat) (hn : |n| ≤ 2 ^ 24) (hk : k ≤ 100) (hx : x = n / 2 ^ k) : I.Exact x := by
  unfold Ieee.Exact
  rw [hx]
  exact I.rnd_dyadic n k hn hk

theorem exact_zero : I.Exact 0 := by simpa using exact_nat (I := I) (n := 0) (by norm_num)
theorem exact_one : I.Exact 1 := by simpa using exact_nat (I := I) (n := 1) (by norm_num)

theorem exact_val {a : F} {x : ℝ} (h : I.val a = .num x) : I.Exact x := I.rnd_val a x h

theorem val_nat {n : Nat} (h : n ≤ 2 ^ 24) : I.val (n : F) = .num n := by
  rw [I.natCast]; exact exact_nat h

theorem val_two : I.val (2 : F) = .num 2 := by
  have := val_nat (I := I) (n := 2) (by norm_num)
  simpa using this

theorem val_ofInt {n : ℤ} (h : |n| ≤ 2 ^ 24) : I.val (ofInt n : F) = .num n := by
  rw [I.ofInt]; exact exact_int h

theorem val_half : I.val (lit (1 / 2) : F) = .num (1 / 2) := by
  rw [I.lit]
  have := exact_dyadic (I := I) (x := 1 / 2) 1 1 (by norm_num) (by norm_num) (by norm_num)
  push_cast
  exact this

theorem Ieee.Between.add {a b : F} {x1 x2 y1 y2 lo hi : ℝ} (ha : I.Between a x1 x2) (hb : I.Between b y1 y2)
    (hl : I.Exact lo) (hh : I.Exact hi) (h1 : lo ≤ x1 + y1) (h2 : x2 + y2 ≤ hi) : I.Between (a + b) lo hi := by
  obtain ⟨x, ex, _, _⟩ := ha
  obtain ⟨y, ey, _, _⟩ := hb
  unfold Ieee.Between
  rw [I.add, ex, ey]
  exact rnd_between hl hh (by linarith) (by linarith)

theorem Ieee.Between.sub {a b : F} {x1 x2 y1 y2 lo hi : ℝ} (ha : I.Between a x1 x2) (hb : I.Between b y1 y2)
    (hl : I.Exact lo) (hh : I.Exact hi) (h1 : lo ≤ x1 - y2) (h2 : x2 - y1 ≤ hi) : I.Between (a - b) lo hi := by
  obtain ⟨x, ex, _, _⟩ := ha
  obtain ⟨y, ey, _, _⟩ := hb
  unfold Ieee.Between
  rw [I.sub, ex, ey]
  show ∃ z, I.rnd (x + -y) = _ ∧ _
  exact rnd_between hl hh (by linarith) (by linarith)

/-- A product, with bounds of the exact product given for all values in the ranges. -/
theorem Ieee.Between.mul {a b : F} {x1 x2 y1 y2 lo hi : ℝ} (ha : I.Between a x1 x2) (hb : I.Between b y1 y2)
    (hl : I.Exact lo) (hh : I.Exact hi)
    (h : ∀ x y, x1 ≤ x → x ≤ x2 → y1 ≤ y → y ≤ y2 → lo ≤ x * y ∧ x * y ≤ hi) : I.Between (a * b) lo hi := by
  obtain ⟨x, ex, a1, a2⟩ := ha
  obtain ⟨y, ey, b1, b2⟩ := hb
  unfold Ieee.Between
  rw [I.mul, ex, ey]
  exact rnd_between hl hh (h x y a1 a2 b1 b2).1 (h x y a1 a2 b1 b2).2

theorem Ieee.Between.div {a b : F} {x1 x2 c lo hi : ℝ} (ha : I.Between a x1 x2) (hb : I.val b = .num c) (hc : 0 < c)
    (hl : I.Exact lo) (hh : I.Exact hi) (h1 : lo * c ≤ x1) (h2 : x2 ≤ hi * c) : I.Between (a / b) lo hi := by
  obtain ⟨x, ex, a1, a2⟩ := ha
  unfold Ieee.Between
  rw [I.div a b x c ex hb hc.ne']
  refine rnd_between hl hh ?_ ?_
  · rw [le_div_iff₀ hc]; linarith
  · rw [div_le_iff₀ hc]; linarith

theorem between_val {a : F} {x : ℝ} (h : I.val a = .num x) : I.Between a x x := ⟨x, h, le_rfl, le_rfl⟩

theorem Ieee.Between.eq {a : F} {x : ℝ} (h : I.Between a x x) : I.val a = .num x := by
  obtain ⟨y, e, h1, h2⟩ := h
  rw [e, le_antisymm h2 h1]

theorem Ieee.Between.weaken {a : F} {x y x' y' : ℝ} (h : I.Between a x y) (h1 : x' ≤ x) (h2 : y ≤ y') :
    I.Between a x' y' := by
  obtain ⟨z, e, a1, a2⟩ := h
  exact ⟨z, e, h1.trans a1, a2.trans h2⟩

theorem roundAway_mono {x y : ℝ} (h : x ≤ y) : roundAway x ≤ roundAway y := by
  unfold roundAway
  split
  · rw [if_pos (by linarith)]
    exact Int.floor_mono (by linarith)
  · split
    · have h1 : ⌈x - 1 / 2⌉ ≤ 0 := by rw [Int.ceil_le]; push_cast; linarith
      have h2 : 0 ≤ ⌊y + 1 / 2⌋ := by rw [Int.le_floor]; push_cast; linarith
      omega
    · exact Int.ceil_mono (by linarith)

theorem roundAway_int (n : ℤ) : roundAway (n : ℝ) = n := by
  unfold roundAway
  split
  · rw [Int.floor_eq_iff]; constructor <;> linarith
  · rw [Int.ceil_eq_iff]; constructor <;> linarith

/-- Rounding to an integer between bounds. -/
theorem Ieee.Between.round {a : F} {x y : ℝ} (h : I.Between a x y) :
    ∃ n : ℤ, I.val (FloatOps.round a) = .num n ∧ roundAway x ≤ n ∧ n ≤ roundAway y := by
  obtain ⟨z, e, h1, h2⟩ := h
  exact ⟨roundAway z, I.round_num a z e, roundAway_mono h1, roundAway_mono h2⟩

theorem toNat_of_val {a : F} {n : ℤ} (h : I.val a = .num n) (hn : n < 2 ^ 64) : toNat a = n.toNat := by
  rw [I.toNat, h]
  simp only [Flt.toNat, Int.floor_intCast]
  omega

/-! ## Blurring -/

theorem lt_zero_of {r : F} {x : ℝ} (h : I.val r = .num x) (hx : 0 < x) : FloatOps.lt 0 r = true := by
  rw [I.lt, I.zero, h]; exact hx

theorem fblur_ofSize {image : Img F} {w h : Nat} (hi : OfSize image w h) (hw : 0 < w) (hh : 0 < h) {r : F} {x : ℝ}
    (hr : I.val r = .num x) (hx : 0 < x) (hx' : x ≤ 2 ^ 20) : ∃ out, fblur image r = some out ∧ OfSize out w h := by
  have h2 : I.Between (2 * r) 0 (2 ^ 21 : ℕ) := by
    refine (between_val val_two).mul (between_val hr) exact_zero (exact_nat (by norm_num)) ?_
    intro a b a1 a2 b1 b2
    have ha : a = 2 := le_antisymm a2 a1
    have hb : b = x := le_antisymm b2 b1
    subst ha hb
    constructor
    · positivity
    · push_cast; linarith
  obtain ⟨z, hz, z0, z1⟩ := h2
  have hc := I.ceil_num _ _ hz
  have hle : ⌈z⌉ ≤ 2 ^ 21 := by
    rw [Int.ceil_le]; push_cast at z1 ⊢; exact z1
  have hn : toNat (ceil (2 * r)) = ⌈z⌉.toNat := toNat_of_val hc (by omega)
  unfold fblur
  rw [if_pos (lt_zero_of hr hx)]
  simp only []
  rw [hn, if_pos (by omega)]
  unfold fgaussianKernel
  rw [if_neg (by omega)]
  simp only [Option.bind_eq_bind, Option.bind_some]
  refine separableFilter_ofSize hi hw hh ?_ ?_ <;>
  · rw [List.length_map, List.length_map, List.length_range]; omega

theorem fblur_one {image : Img F} {w h : Nat} (I : Ieee F) (hi : OfSize image w h) (hw : 0 < w) (hh : 0 < h) :
    ∃ out, fblur image 1 = some out ∧ OfSize out w h :=
  fblur_ofSize hi hw hh I.one (by norm_num) (by norm_num)

/-! ## The contrast factor -/

section

variable {D : Type} [FloatOps D] {J : Ieee D} [FloatCast F D]

theorem foldl_ordMax (J : Ieee D) : ∀ (l : List D) (a : D),
    ordLe a (l.foldl (fun m x => if ordLe m x then x else m) a) = true ∧
      ∀ b ∈ l, ordLe b (l.foldl (fun m x => if ordLe m x then x else m) a) = true
  | [], a => ⟨by rcases J.ordLe_total a a with h | h <;> exact h, by simp⟩
  | b :: l, a => by
    rw [List.foldl_cons]
    by_cases h : ordLe a b = true
    · rw [if_pos h]
      obtain ⟨h1, h2⟩ := foldl_ordMax J l b
      refine ⟨J.ordLe_trans _ _ _ h h1, ?_⟩
      intro c hc
      rcases List.mem_cons.1 hc with rfl | hc
      · exact h1
      · exact h2 c hc
    · rw [if_neg h]
      obtain ⟨h1, h2⟩ := foldl_ordMax J l a
      refine ⟨h1, ?_⟩
      intro c hc
      rcases List.mem_cons.1 hc with rfl | hc
      · exact J.ordLe_trans _ _ _ ((J.ordLe_total a c).resolve_left h) h1
      · exact h2 c hc

/-- The square root of a number is a number. -/
theorem val_sqrt {a : D} {x : ℝ} (h : J.val a = .num x) (hx : 0 ≤ x) :
    ∃ s, J.val (sqrt a) = .num s ∧ 0 ≤ s ∧ J.rnd √x = .num s := by
  rw [J.sqrt_num a x h, if_neg (not_lt.2 hx)]
  have h1 : √x ≤ max 1 x := by
    rcases le_total 1 x with h1 | h1
    · rw [max_eq_right h1, Real.sqrt_le_left (by linarith)]; nlinarith
    · rw [max_eq_left h1]; exact Real.sqrt_le_one.2 h1
  obtain ⟨s, e, s0, _⟩ := rnd_between (I := J) exact_zero (by
    rcases max_choice 1 x with e | e <;> rw [e]
    · exact exact_one
    · exact exact_val h) (Real.sqrt_nonneg x) h1
  exact ⟨s, e, s0, e⟩

/-- The quotient of two square roots. -/
theorem sqrt_quotient {a m : D} (h : ordLe a m = true) (h0 : FloatOps.eq (sqrt a) 0 = false) :
    J.val (sqrt a / sqrt m) = .nan ∨ J.Between (sqrt a / sqrt m) 0 1 := by
  by_cases na : J.val (sqrt a) = .nan
  · exact Or.inl (J.div_nan _ _ (Or.inl na))
  by_cases nm : J.val (sqrt m) = .nan
  · exact Or.inl (J.div_nan _ _ (Or.inr nm))
  rcases ea : J.val a with _ | s | x
  · exact absurd (J.sqrt_nan a ea) na
  · have sa := J.sqrt_inf a s ea
    cases s
    · rcases em : J.val m with _ | t | y
      · exact absurd (J.sqrt_nan m em) nm
      · cases t
        · exact Or.inl (J.inf_div_inf _ _ _ _ sa (J.sqrt_inf m _ em))
        · exact absurd (J.sqrt_inf m _ em) nm
      · have := J.ordLe a m h
        rw [ea, em] at this
        simp [Flt.Le, Flt.Ge] at this
    · exact absurd sa na
  · have hx : 0 ≤ x := by
      by_contra hc
      have := J.sqrt_num a x ea
      rw [if_pos (not_le.1 hc)] at this
      exact na this
    obtain ⟨s, es, s0, rs⟩ := val_sqrt ea hx
    rcases em : J.val m with _ | t | y
    · exact absurd (J.sqrt_nan m em) nm
    · cases t
      · right
        exact ⟨0, J.div_inf _ _ s false es (J.sqrt_inf m _ em), le_rfl, zero_le_one⟩
      · exact absurd (J.sqrt_inf m _ em) nm
    · have hxy : x ≤ y := by
        have := J.ordLe a m h
        rw [ea, em] at this
        simpa [Flt.Le, Flt.Ge] using this
      obtain ⟨t, et, t0, rt⟩ := val_sqrt em (hx.trans hxy)
      have hst : s ≤ t := by
        have := J.rnd_mono _ _ (Real.sqrt_le_sqrt hxy)
        rw [rs, rt] at this
        exact this
      have hs : s ≠ 0 := by
        rintro rfl
        have : FloatOps.eq (sqrt a) 0 = true := by
          unfold FloatOps.eq
          rw [Bool.and_eq_true, J.le, J.le, es, J.zero]
          exact ⟨le_rfl, le_rfl⟩
        rw [this] at h0
        cases h0
      have ht : 0 < t := lt_of_lt_of_le (lt_of_le_of_ne s0 hs.symm) hst
      right
      exact (between_val es).div et ht exact_zero exact_one (by linarith) (by linarith)

/-- Every gradient has a bin. -/
theorem fbinNumber_lt {bins : Nat} (hb : 0 < bins) (hb' : bins ≤ 2 ^ 24) {a m : D} (h : ordLe a m = true) (J : Ieee D)
    (h0 : FloatOps.eq (sqrt a) 0 = false) : ∃ b, fbinNumber bins (sqrt a) (sqrt m) = some b ∧ b < bins := by
  have key : toNat (floor ((bins : D) * (sqrt a / sqrt m))) ≤ bins := by
    rw [J.toNat, J.floor, J.mul, val_nat hb']
    rcases sqrt_quotient (J := J) h h0 with e | ⟨q, e, q0, q1⟩
    · rw [e]; simp [Flt.mul, roundedBy, Flt.floor, Flt.toNat]
    · rw [e]
      obtain ⟨z, ez, _, z1⟩ := rnd_between (I := J) (x := bins * q) exact_zero (exact_nat hb')
        (by positivity) (by have : (0 : ℝ) ≤ bins := by positivity
                            nlinarith)
      simp only [Flt.mul, roundedBy, ez, Flt.floor, Flt.toNat, Int.floor_intCast]
      have : ⌊z⌋ ≤ bins := by
        have := Int.floor_mono z1
        simpa using this
      omega
  unfold fbinNumber
  simp only []
  split
  · rw [if_neg (by omega)]
    exact ⟨_, rfl, by omega⟩
  · exact ⟨_, rfl, by omega⟩

theorem ffill_total (J : Ieee D) {bins : Nat} (hb : 0 < bins) (hb' : bins ≤ 2 ^ 24) {m : D} : ∀ (l : List D) (hist : List Nat)
    (points : D), (∀ a ∈ l, ordLe a m = true) → hist.length = bins →
    ∃ r, ffillHistogram bins (sqrt m) l hist points = some r
  | [], hist, points, _, _ => ⟨_, rfl⟩
  | a :: l, hist, points, hl, hlen => by
    unfold ffillHistogram
    by_cases h0 : FloatOps.eq (sqrt a) 0 = true
    · simp only [h0, if_true]
      exact ffill_total J hb hb' l hist points (fun b hb => hl b (List.mem_cons_of_mem _ hb)) hlen
    · obtain ⟨b, e, hlt⟩ := fbinNumber_lt hb hb' (hl a List.mem_cons_self) J (by simpa using h0)
      have eb : bump hist b = some (hist.set b (hist.getD b 0 + 1)) := by
        unfold bump; rw [if_pos (by omega)]
      simp only [h0, e, eb, Option.bind_eq_bind, Option.bind_some]
      exact ffill_total J hb hb' l _ _ (fun b hb => hl b (List.mem_cons_of_mem _ hb)) (by simpa using hlen)

theorem fsquares_total {lx ly : Img F} {w h : Nat} (hx : OfSize lx w h) (hy : OfSize ly w h) :
    ∀ {ps : List (Nat × Nat)}, (∀ p ∈ ps, p.1 < w ∧ p.2 < h) →
      ∃ l : List D, fsquares lx ly ps = some l ∧ l.length = ps.length
  | [], _ => ⟨[], rfl, rfl⟩
  | p :: ps, hp => by
    obtain ⟨l, e, hl⟩ := fsquares_total hx hy (fun q hq => hp q (List.mem_cons_of_mem _ hq))
    obtain ⟨h1, h2⟩ := hp p List.mem_cons_self
    obtain ⟨a, ha⟩ := hx.get h1 h2
    obtain ⟨b, hb⟩ := hy.get h1 h2
    refine ⟨(widen (a * a) + widen (b * b)) :: l, ?_, by simp [hl]⟩
    unfold fsquares at e ⊢
    rw [List.mapM_cons, ha, hb, e]; rfl

theorem fcontrastOf_total (J : Ieee D) {lx ly : Img F} {w h bins : Nat} (hx : OfSize lx w h) (hy : OfSize ly w h)
    (hw : 3 ≤ w) (hh : 3 ≤ h) (hb : 0 < bins) (hb' : bins ≤ 2 ^ 24) (percentile : D) :
    ∃ k, fcontrastOf lx ly w h percentile bins = some k := by
  obtain ⟨l, e, hl⟩ := fsquares_total (D := D) hx hy (ps := interior w h) (by
    intro p hp
    obtain ⟨h1, h2, h3, h4⟩ := mem_interior.1 hp
    omega)
  have hne : l ≠ [] := by
    intro h0
    rw [h0] at hl
    have : (1, 1) ∈ interior w h := mem_interior.2 ⟨by simp, by simp; omega, by simp, by simp; omega⟩
    have := List.length_pos_of_mem this
    simp at hl
    omega
  obtain ⟨a, l', rfl⟩ := List.exists_cons_of_ne_nil hne
  obtain ⟨m1, m2⟩ := foldl_ordMax J l' a
  obtain ⟨⟨hist, points⟩, ef⟩ := ffill_total J hb hb' (m := l'.foldl (fun m x => if ordLe m x then x else m) a) (a :: l')
    (List.replicate bins 0) 0 (by
      intro b hb
      rcases List.mem_cons.1 hb with rfl | hb
      · exact m1
      · exact m2 b hb) (by simp)
  unfold fcontrastOf
  simp only [e, fmaximum, ef, Option.bind_eq_bind, Option.bind_some]
  split
  · exact ⟨_, rfl⟩
  · exact ⟨_, rfl⟩

theorem fcontrastFactor_total {I : Ieee F} {J : Ieee D} (C : IeeeCast I J) {image : Img F} {w h bins : Nat}
    (hi : OfSize image w h) (hw : 3 ≤ w) (hh : 3 ≤ h) (hb : 0 < bins) (hb' : bins ≤ 2 ^ 24) (percentile : D) :
    ∃ k, fcontrastFactor image percentile 1 bins = some k := by
  have hone : I.val (narrow (1 : D) : F) = .num 1 := by
    rw [C.narrow, J.one]; exact exact_one
  obtain ⟨g, e, hg⟩ := fblur_ofSize (I := I) hi (by omega) (by omega) hone (by norm_num) (by norm_num)
  obtain ⟨⟨lx, e1, h1⟩, ⟨ly, e2, h2⟩⟩ := simpleScharr_ofSize hg (by omega) (by omega)
  obtain ⟨k, ek⟩ := fcontrastOf_total J h1 h2 hw hh hb hb' percentile
  refine ⟨k, ?_⟩
  unfold fcontrastFactor
  simp only [e, e1, e2, hg.2.1, hg.2.2, Option.bind_eq_bind, Option.bind_some]
  exact ek

end

end Verif.Akaze
