import Verif.Spec.Detect
import Verif.Lemmas.Image
import Mathlib.Tactic.Linarith
import Mathlib.Tactic.Ring

/-!
# Lemmas: finding keypoints
-/

namespace Verif.Akaze

theorem Img.Shows.pixel {K : Type _} {i : Img K} {w h : Nat} {f : Nat → Nat → K} (hs : i.Shows w h f) {x y n : Nat}
    (hx : x < w) (hy : y < h) (hn : n = y * w + x) : i.data[n]? = some (f x y) := hn ▸ hs.data hx hy

/-- The neighbours of a pixel one by one. -/
theorem isPeak_iff {f : Nat → Nat → ℝ} {w h x y : Nat} : IsPeak f w h (x + 1) (y + 1) ↔
    x + 2 < w ∧ y + 2 < h ∧ f x y < f (x + 1) (y + 1) ∧ f (x + 1) y < f (x + 1) (y + 1) ∧
      f (x + 2) y < f (x + 1) (y + 1) ∧ f x (y + 1) < f (x + 1) (y + 1) ∧ f (x + 2) (y + 1) < f (x + 1) (y + 1) ∧
      f x (y + 2) < f (x + 1) (y + 1) ∧ f (x + 1) (y + 2) < f (x + 1) (y + 1) ∧
      f (x + 2) (y + 2) < f (x + 1) (y + 1) := by
  constructor
  · rintro ⟨_, h1, _, h2, h3⟩
    refine ⟨h1, h2, h3 _ _ ?_ ?_ ?_ ?_ ?_, h3 _ _ ?_ ?_ ?_ ?_ ?_, h3 _ _ ?_ ?_ ?_ ?_ ?_, h3 _ _ ?_ ?_ ?_ ?_ ?_,
      h3 _ _ ?_ ?_ ?_ ?_ ?_, h3 _ _ ?_ ?_ ?_ ?_ ?_, h3 _ _ ?_ ?_ ?_ ?_ ?_, h3 _ _ ?_ ?_ ?_ ?_ ?_⟩ <;>
      first | omega | simp
  · rintro ⟨h1, h2, a, b, c, d, e, f', g, k⟩
    refine ⟨by omega, by omega, by omega, by omega, fun x' y' p1 p2 p3 p4 hne => ?_⟩
    have hx : x' = x ∨ x' = x + 1 ∨ x' = x + 2 := by omega
    have hy : y' = y ∨ y' = y + 1 ∨ y' = y + 2 := by omega
    rcases hx with rfl | rfl | rfl <;> rcases hy with rfl | rfl | rfl <;> first | assumption | exact absurd rfl hne

open Classical in
/-- The peak at the `i`-th pixel, if there is one. -/
noncomputable def peakIf (threshold : ℝ) (f : Nat → Nat → ℝ) (w h i : Nat) : Option Peak :=
  if IsPeak f w h (i % w) (i / w) ∧ threshold < f (i % w) (i / w) then some ⟨i % w, i / w, f (i % w) (i / w)⟩ else none

theorem peakAt_eq {threshold : ℝ} {img : Img ℝ} {f : Nat → Nat → ℝ} {w h i : Nat} (hs : img.Shows w h f) (hw : 0 < w)
    (hi : w + 1 ≤ i) (hi' : i + w + 1 < w * h) : peakAt threshold w img.data i = some (peakIf threshold f w h i) := by
  have hlen : img.data.length = w * h := by have := hs.2.2.1; unfold Img.WF at this; rwa [hs.1, hs.2.1] at this
  have some' : ∀ n, n < w * h → ∃ v, img.data[n]? = some v := fun n hn =>
    ⟨_, List.getElem?_eq_getElem (by rw [hlen]; exact hn)⟩
  have hx : i % w < w := Nat.mod_lt _ hw
  have hdiv := Nat.mod_add_div i w
  have hy1 : 1 ≤ i / w := (Nat.one_le_div_iff hw).2 (by omega)
  have hyh : i / w < h := by
    refine Nat.div_lt_of_lt_mul ?_
    omega
  obtain ⟨y, hy⟩ : ∃ y, i / w = y + 1 := ⟨i / w - 1, by omega⟩
  by_cases hb : i % w ≠ 0 ∧ i % w ≠ w - 1
  · obtain ⟨x, hx'⟩ : ∃ x, i % w = x + 1 := ⟨i % w - 1, by omega⟩
    have hy2 : y + 2 < h := by
      by_contra hc
      have : w * h ≤ w * (y + 2) := Nat.mul_le_mul_left _ (by omega)
      rw [hy] at hdiv
      nlinarith
    rw [hy, hx'] at hdiv
    have e1 : i = (y + 1) * w + (x + 1) := by rw [← hdiv]; ring
    have hyw : (y + 1) * w = y * w + w := by ring
    have hyw2 : (y + 2) * w = y * w + 2 * w := by ring
    have hpk := isPeak_iff (f := f) (w := w) (h := h) (x := x) (y := y)
    unfold peakAt peakIf
    simp only [hx', hy, hpk]
    rw [hs.pixel (x := x) (y := y) (by omega) (by omega) (by omega),
      hs.pixel (x := x + 1) (y := y) (by omega) (by omega) (by omega),
      hs.pixel (x := x + 2) (y := y) (by omega) (by omega) (by omega),
      hs.pixel (x := x) (y := y + 1) (by omega) (by omega) (by omega),
      hs.pixel (x := x + 1) (y := y + 1) (by omega) (by omega) (by omega),
      hs.pixel (x := x + 2) (y := y + 1) (by omega) (by omega) (by omega),
      hs.pixel (x := x) (y := y + 2) (by omega) (by omega) (by omega),
      hs.pixel (x := x + 1) (y := y + 2) (by omega) (by omega) (by omega),
      hs.pixel (x := x + 2) (y := y + 2) (by omega) (by omega) (by omega)]
    simp only [Option.bind_eq_bind, Option.bind_some, Option.pure_def, Option.some.injEq]
    refine if_congr ?_ rfl rfl
    constructor
    · rintro ⟨_, _, t, a, b, c, d, e, g, k, l⟩
      exact ⟨⟨by omega, hy2, a, b, c, d, e, g, k, l⟩, t⟩
    · rintro ⟨⟨_, _, a, b, c, d, e, g, k, l⟩, t⟩
      exact ⟨by omega, by omega, t, a, b, c, d, e, g, k, l⟩
  · obtain ⟨a, ha⟩ := some' (i - (w + 1)) (by omega)
    obtain ⟨b, hb'⟩ := some' (1 + (i - (w + 1))) (by omega)
    obtain ⟨c, hc⟩ := some' (2 + (i - (w + 1))) (by omega)
    obtain ⟨d, hd⟩ := some' (w + (i - (w + 1))) (by omega)
    obtain ⟨v, hv⟩ := some' (w + 1 + (i - (w + 1))) (by omega)
    obtain ⟨e, he⟩ := some' (w + 2 + (i - (w + 1))) (by omega)
    obtain ⟨f', hf⟩ := some' (2 * w + (i - (w + 1))) (by omega)
    obtain ⟨g, hg⟩ := some' (2 * w + 1 + (i - (w + 1))) (by omega)
    obtain ⟨k, hk⟩ := some' (2 * w + 2 + (i - (w + 1))) (by omega)
    unfold peakAt peakIf
    simp only [ha, hb', hc, hd, hv, he, hf, hg, hk, Option.bind_eq_bind, Option.bind_some, Option.pure_def, Option.some.injEq]
    rw [if_neg (fun hc => hb ⟨hc.1, hc.2.1⟩), if_neg]
    rintro ⟨⟨h1, h2, _⟩, _⟩
    exact hb ⟨by omega, by omega⟩

/-- The peaks of an image, in the order in which they are found. -/
noncomputable def peakList (threshold : ℝ) (f : Nat → Nat → ℝ) (w h : Nat) : List Peak :=
  (List.range' (w + 1) (w * h - w - 1 - (w + 1))).filterMap (peakIf threshold f w h)

theorem peaksOf_eq {threshold : ℝ} {img : Img ℝ} {f : Nat → Nat → ℝ} {w h : Nat} (hs : img.Shows w h f) (hw : 0 < w)
    (hh : 2 ≤ h) : peaksOf threshold img = some (peakList threshold f w h) := by
  have hlen : img.data.length = w * h := by have := hs.2.2.1; unfold Img.WF at this; rwa [hs.1, hs.2.1] at this
  have : w * 2 ≤ w * h := Nat.mul_le_mul_left _ hh
  unfold peaksOf
  rw [hlen, hs.1, if_neg (by omega)]
  have e : (List.range' (w + 1) (w * h - w - 1 - (w + 1))).mapM (peakAt threshold w img.data) =
      some ((List.range' (w + 1) (w * h - w - 1 - (w + 1))).map (peakIf threshold f w h)) := by
    refine mapM_some ?_
    intro i hi
    rw [List.mem_range'_1] at hi
    exact peakAt_eq hs hw hi.1 (by omega)
  rw [e, Option.map_some, List.filterMap_map]
  rfl

theorem mem_peakList {threshold : ℝ} {f : Nat → Nat → ℝ} {w h : Nat} {p : Peak} : p ∈ peakList threshold f w h ↔
    IsPeak f w h p.x p.y ∧ threshold < f p.x p.y ∧ p.v = f p.x p.y := by
  unfold peakList
  rw [List.mem_filterMap]
  constructor
  · rintro ⟨i, hi, hp⟩
    unfold peakIf at hp
    split at hp
    · rename_i hc
      obtain rfl := Option.some.inj hp
      exact ⟨hc.1, hc.2, rfl⟩
    · cases hp
  · rintro ⟨hp, ht, hv⟩
    obtain ⟨h1, h2, h3, h4, -⟩ := id hp
    obtain ⟨x, y, v⟩ := p
    simp only at *
    have e1 : (y * w + x) % w = x := by
      rw [Nat.mul_comm, Nat.mul_add_mod]; exact Nat.mod_eq_of_lt (by omega)
    have e2 : (y * w + x) / w = y := by
      rw [Nat.mul_comm, Nat.mul_add_div (by omega), Nat.div_eq_of_lt (by omega)]; rfl
    have g1 : 1 * w ≤ y * w := Nat.mul_le_mul_right _ h3
    have g2 : (y + 2) * w ≤ h * w := Nat.mul_le_mul_right _ (by omega)
    have g3 : (y + 2) * w = y * w + 2 * w := by ring
    have g4 : w * h = h * w := Nat.mul_comm _ _
    refine ⟨y * w + x, List.mem_range'_1.2 ⟨by omega, by omega⟩, ?_⟩
    unfold peakIf
    rw [e1, e2, if_pos ⟨hp, ht⟩, hv]

theorem nodup_peakList {threshold : ℝ} {f : Nat → Nat → ℝ} {w h : Nat} :
    (peakList threshold f w h).Pairwise (fun p q => (p.x, p.y) ≠ (q.x, q.y)) := by
  unfold peakList
  rw [List.pairwise_filterMap]
  refine (List.nodup_range').imp ?_
  intro a b hab p hp q hq he
  have key : ∀ {i : Nat} {p : Peak}, peakIf threshold f w h i = some p → i = p.x + w * p.y := by
    intro i p hp
    unfold peakIf at hp
    split at hp
    · obtain rfl := Option.some.inj hp
      exact (Nat.mod_add_div i w).symm
    · cases hp
  have h1 := key hp
  have h2 := key hq
  simp only [Prod.mk.injEq] at he
  rw [he.1, he.2] at h1
  exact hab (h1.trans h2.symm)

/-! ## Rounding -/

theorem roundAway_nonneg {x : ℝ} (hx : 0 ≤ x) : roundAway x = ⌊x + 1 / 2⌋ := by
  unfold roundAway; rw [if_pos hx]

theorem one_le_roundAway {x : ℝ} : 1 ≤ roundAway x ↔ 1 / 2 ≤ x := by
  unfold roundAway
  split
  · rw [Int.le_floor]; push_cast
    constructor <;> intro h <;> linarith
  · rename_i hx
    push Not at hx
    constructor
    · intro h
      have := Int.ceil_lt_add_one (x - 1 / 2)
      have h' : (1 : ℝ) ≤ (⌈x - 1 / 2⌉ : ℤ) := by exact_mod_cast h
      linarith
    · intro h; linarith

theorem roundAway_lt {x : ℝ} (hx : 0 ≤ x) {n : ℤ} : roundAway x < n ↔ x < n - 1 / 2 := by
  rw [roundAway_nonneg hx, Int.floor_lt]
  constructor <;> intro h <;> linarith

theorem roundAway_natCast (n : Nat) : roundAway n = n := by
  rw [roundAway_nonneg (Nat.cast_nonneg n)]
  rw [Int.floor_eq_iff]; push_cast
  constructor <;> linarith

/-! ## The cache -/

/-- The keypoints in the cache, now and later, are those of candidates inside the image. -/
theorem mem_addCandidate {cache : List KeyPoint} {c : Candidate} {k : KeyPoint} (hk : k ∈ addCandidate cache c) :
    k ∈ cache ∨ (isOut c = false ∧ k = stored c) := by
  unfold addCandidate at hk
  split at hk
  · split at hk
    · exact Or.inl hk
    · rename_i ho
      rcases List.mem_append.1 hk with h | h
      · exact Or.inl h
      · exact Or.inr ⟨by simpa using ho, by simpa using h⟩
  · split at hk
    · exact Or.inl hk
    · split at hk
      · split at hk
        · exact Or.inl hk
        · rename_i ho
          rcases List.mem_or_eq_of_mem_set hk with h | h
          · exact Or.inl h
          · exact Or.inr ⟨by simpa using ho, h⟩
      · exact Or.inl hk

theorem mem_foldl {cs : List Candidate} : ∀ {cache : List KeyPoint} {k : KeyPoint},
    k ∈ cs.foldl addCandidate cache → k ∈ cache ∨ ∃ c ∈ cs, isOut c = false ∧ k = stored c := by
  induction cs with
  | nil => intro cache k hk; exact Or.inl hk
  | cons c cs ih =>
    intro cache k hk
    rcases ih hk with h | ⟨c', h1, h2⟩
    · rcases mem_addCandidate h with h | h
      · exact Or.inl h
      · exact Or.inr ⟨c, List.mem_cons_self, h⟩
    · exact Or.inr ⟨c', List.mem_cons_of_mem _ h1, h2⟩

theorem nodup_foldl {cs : List Candidate} : ∀ {cache : List KeyPoint}, cache.Nodup →
    (∀ k ∈ cache, ∀ c ∈ cs, k ≠ stored c) → cs.Pairwise (fun c c' => stored c ≠ stored c') →
    (cs.foldl addCandidate cache).Nodup := by
  induction cs with
  | nil => intro cache hn _ _; exact hn
  | cons c cs ih =>
    intro cache hn hd hp
    rw [List.pairwise_cons] at hp
    refine ih ?_ ?_ hp.2
    · have hc : stored c ∉ cache := fun h => hd _ h c List.mem_cons_self rfl
      unfold addCandidate
      split
      · split
        · exact hn
        · exact List.nodup_append.2 ⟨hn, by simp, fun a ha b hb => by
            simp only [List.mem_singleton] at hb; subst hb; intro e; exact hc (e ▸ ha)⟩
      · split
        · exact hn
        · split
          · split
            · exact hn
            · exact hn.set hc
          · exact hn
    · intro k hk c' hc'
      rcases mem_addCandidate hk with h | ⟨_, rfl⟩
      · exact hd k h c' (List.mem_cons_of_mem _ hc')
      · exact hp.1 c' hc'

/-- A keypoint stays in the cache if no candidate that is not the same can push it out. -/
theorem mem_addCandidate_of_mem {cache : List KeyPoint} {c : Candidate} {k : KeyPoint} (hk : k ∈ cache)
    (hr : isOut c = false → stored c ≠ k → tooClose c k = true → c.k.response ≤ k.response) :
    k ∈ addCandidate cache c := by
  unfold addCandidate
  split
  · split
    · exact hk
    · exact List.mem_append_left _ hk
  · rename_i id hid
    split
    · exact hk
    · rename_i prev hprev
      split
      · split
        · exact hk
        · rename_i hlt ho
          by_cases hck : stored c = k
          · obtain ⟨hlt', _⟩ := List.getElem?_eq_some_iff.1 hprev
            rw [hck]
            exact List.mem_set hlt' _
          · obtain ⟨j, hj, rfl⟩ := List.getElem_of_mem hk
            by_cases hji : id = j
            · subst hji
              rw [List.getElem?_eq_getElem hj] at hprev
              obtain rfl := Option.some.inj hprev
              obtain ⟨_, h1, _⟩ := List.findIdx?_eq_some_iff_getElem.1 hid
              exact absurd hlt (not_lt.2 (hr (by simpa using ho) hck h1))
            · have := List.getElem_set_of_ne hji (stored c) (l := cache) (by simpa using hj)
              rw [← this]
              exact List.getElem_mem _
      · exact hk

theorem mem_foldl_of_mem {cs : List Candidate} : ∀ {cache : List KeyPoint} {k : KeyPoint}, k ∈ cache →
    (∀ c ∈ cs, isOut c = false → stored c ≠ k → tooClose c k = true → c.k.response ≤ k.response) →
    k ∈ cs.foldl addCandidate cache := by
  induction cs with
  | nil => intro cache k hk _; exact hk
  | cons c cs ih =>
    intro cache k hk hr
    exact ih (mem_addCandidate_of_mem hk (hr c List.mem_cons_self)) (fun c' hc' => hr c' (List.mem_cons_of_mem _ hc'))

/-- A candidate enters the cache if it is stronger than all it is too close to. -/
theorem stored_mem_addCandidate {cache : List KeyPoint} {c : Candidate} (ho : isOut c = false)
    (hr : ∀ k ∈ cache, k ≠ stored c → tooClose c k = true → k.response < c.k.response) :
    stored c ∈ addCandidate cache c := by
  unfold addCandidate
  split
  · rw [if_neg (by simp [ho])]
    exact List.mem_append_right _ (by simp)
  · rename_i id hid
    obtain ⟨hlt, h1, _⟩ := List.findIdx?_eq_some_iff_getElem.1 hid
    rw [List.getElem?_eq_getElem hlt]
    simp only
    by_cases he : cache[id] = stored c
    · split
      · rw [if_neg (by simp [ho])]
        exact List.mem_set hlt _
      · rw [← he]; exact List.getElem_mem _
    · rw [if_pos (hr _ (List.getElem_mem _) he h1), if_neg (by simp [ho])]
      exact List.mem_set hlt _

theorem stored_mem_foldl {cs : List Candidate} {c : Candidate} (hc : c ∈ cs) (ho : isOut c = false)
    (hbefore : ∀ c' ∈ cs, isOut c' = false → stored c' ≠ stored c → tooClose c (stored c') = true →
      c'.k.response < c.k.response)
    (hafter : ∀ c' ∈ cs, isOut c' = false → stored c' ≠ stored c → tooClose c' (stored c) = true →
      c'.k.response < c.k.response) : stored c ∈ cs.foldl addCandidate [] := by
  obtain ⟨a, b, rfl⟩ := List.append_of_mem hc
  rw [List.foldl_append, List.foldl_cons]
  refine mem_foldl_of_mem (stored_mem_addCandidate ho ?_) ?_
  · intro k hk hne ht
    rcases mem_foldl hk with h | ⟨c', h1, h2, rfl⟩
    · cases h
    · exact hbefore c' (by simp [h1]) h2 hne ht
  · intro c' hc' h1 h2 h3
    exact le_of_lt (hafter c' (by simp [hc']) h1 h2 h3)

/-- `kj` is of the next class, close to `ki` and not weaker. -/
def Beats (kj ki : KeyPoint) : Prop := ki.classId + 1 = kj.classId ∧
  (ki.x - kj.x) * (ki.x - kj.x) + (ki.y - kj.y) * (ki.y - kj.y) ≤ ki.size * ki.size ∧ ki.response ≤ kj.response

theorem filterUpper_sublist : ∀ {l : List KeyPoint}, (filterUpper l).Sublist l
  | [] => List.Sublist.slnil
  | k :: l => by
    unfold filterUpper
    split
    · exact filterUpper_sublist.cons k
    · exact filterUpper_sublist.cons_cons k

theorem mem_filterUpper : ∀ {l : List KeyPoint} {k : KeyPoint}, k ∈ l → (∀ kj ∈ l, ¬ Beats kj k) → k ∈ filterUpper l
  | [], _, h, _ => by cases h
  | a :: l, k, h, hb => by
    unfold filterUpper
    rcases List.mem_cons.1 h with rfl | h
    · rw [if_neg]
      · exact List.mem_cons_self
      · rw [List.any_eq_true]
        rintro ⟨kj, hj, hd⟩
        simp only [decide_eq_true_eq] at hd
        exact hb kj (List.mem_cons_of_mem _ hj) hd
    · have := mem_filterUpper h (fun kj hj => hb kj (List.mem_cons_of_mem _ hj))
      split
      · exact this
      · exact List.mem_cons_of_mem _ this

theorem filterUpper_pairwise : ∀ {l : List KeyPoint}, (filterUpper l).Pairwise (fun ki kj => ¬ Beats kj ki)
  | [] => List.Pairwise.nil
  | a :: l => by
    unfold filterUpper
    split
    · exact filterUpper_pairwise
    · rename_i hn
      refine List.pairwise_cons.2 ⟨?_, filterUpper_pairwise⟩
      intro kj hj hb
      exact hn (List.any_eq_true.2 ⟨kj, filterUpper_sublist.subset hj, by simp only [decide_eq_true_eq]; exact hb⟩)

/-! ## Candidates -/

/-- The pixel of an image, zero outside. -/
noncomputable def Img.pix (i : Img ℝ) (x y : Nat) : ℝ := (i.get x y).getD 0

theorem Img.WF.shows_pix {i : Img ℝ} (h : i.WF) : i.Shows i.w i.h i.pix := by
  obtain ⟨f, hf⟩ : ∃ f, i.Shows i.w i.h f := by
    let _ : Inhabited ℝ := ⟨0⟩
    exact ⟨_, h.exists_shows⟩
  refine ⟨rfl, rfl, h, fun x y hx hy => ?_⟩
  unfold Img.pix
  rw [hf.2.2.2 x y hx hy]; rfl

/-- Every level has an image with a pixel and at least two rows. -/
def Usable (levels : List DetLevel) : Prop := ∀ l ∈ levels, l.ldet.WF ∧ 0 < l.ldet.w ∧ 2 ≤ l.ldet.h

/-- The candidates of one level. -/
noncomputable def levelCandidates (threshold df : ℝ) (p : DetLevel × Nat) : List Candidate :=
  (peakList threshold p.1.ldet.pix p.1.ldet.w p.1.ldet.h).map (candidate df p.1 p.2)

theorem candidates_eq {threshold df : ℝ} {levels : List DetLevel} (hu : Usable levels) :
    candidates threshold df levels = some ((levels.zipIdx.map (levelCandidates threshold df)).flatten) := by
  unfold candidates
  have : levels.zipIdx.mapM (fun p => (peaksOf threshold p.1.ldet).map
      (fun ps => ps.map (candidate df p.1 p.2))) = some (levels.zipIdx.map (levelCandidates threshold df)) := by
    refine mapM_some ?_
    rintro ⟨l, e⟩ hp
    obtain ⟨h1, h2, h3⟩ := hu l (by
      have := List.mem_zipIdx_iff_getElem?.1 hp
      exact List.mem_of_getElem? this)
    rw [peaksOf_eq h1.shows_pix h2 h3]
    rfl
  rw [this]; rfl

theorem mem_candidates {threshold df : ℝ} {levels : List DetLevel} {c : Candidate} :
    c ∈ (levels.zipIdx.map (levelCandidates threshold df)).flatten ↔ ∃ (e : Nat) (l : DetLevel) (p : Peak),
      levels[e]? = some l ∧ p ∈ peakList threshold l.ldet.pix l.ldet.w l.ldet.h ∧ c = candidate df l e p := by
  rw [List.mem_flatten]
  constructor
  · rintro ⟨cs, hcs, hc⟩
    obtain ⟨⟨l, e⟩, hp, rfl⟩ := List.mem_map.1 hcs
    obtain ⟨p, hp', rfl⟩ := List.mem_map.1 hc
    exact ⟨e, l, p, List.mem_zipIdx_iff_getElem?.1 hp, hp', rfl⟩
  · rintro ⟨e, l, p, hl, hp, rfl⟩
    exact ⟨_, List.mem_map.2 ⟨(l, e), List.mem_zipIdx_iff_getElem?.2 hl, rfl⟩, List.mem_map.2 ⟨p, hp, rfl⟩⟩

theorem pairwise_candidates {threshold df : ℝ} {levels : List DetLevel} :
    ((levels.zipIdx.map (levelCandidates threshold df)).flatten).Pairwise (fun c c' => stored c ≠ stored c') := by
  rw [List.pairwise_flatten]
  refine ⟨?_, ?_⟩
  · intro cs hcs
    obtain ⟨⟨l, e⟩, hp, rfl⟩ := List.mem_map.1 hcs
    refine List.pairwise_map.2 (nodup_peakList.imp ?_)
    intro p q hne he
    have hr : (0 : ℝ) < 2 ^ l.octave := by positivity
    have h1 := congrArg KeyPoint.x he
    have h2 := congrArg KeyPoint.y he
    simp only [stored, candidate] at h1 h2
    have h1' : (p.x : ℝ) = q.x := mul_right_cancel₀ hr.ne' (by linarith)
    have h2' : (p.y : ℝ) = q.y := mul_right_cancel₀ hr.ne' (by linarith)
    exact hne (by rw [Nat.cast_injective h1', Nat.cast_injective h2'])
  · rw [List.pairwise_map]
    have : levels.zipIdx.Pairwise (fun p q => p.2 ≠ q.2) := by
      have := List.pairwise_map.1 (List.nodup_iff_pairwise_ne.1
        (by rw [List.zipIdx_map_snd]; exact List.nodup_range' : (levels.zipIdx.map Prod.snd).Nodup))
      exact this
    refine this.imp ?_
    rintro ⟨l, e⟩ ⟨l', e'⟩ hne c hc c' hc' he
    obtain ⟨p, _, rfl⟩ := List.mem_map.1 hc
    obtain ⟨p', _, rfl⟩ := List.mem_map.1 hc'
    exact hne (congrArg KeyPoint.classId he)

theorem isOut_iff {df : ℝ} {l : DetLevel} {e : Nat} {p : Peak} (hs : 0 ≤ l.esigma * df) :
    isOut (candidate df l e p) = false ↔
      InsideBy l.ldet.w l.ldet.h p.x p.y (10 * √2 * ⌊l.esigma * df / 2 ^ l.octave + 1 / 2⌋) := by
  have hr : (0 : ℝ) < 2 ^ l.octave := by positivity
  have hq : 0 ≤ l.esigma * df / 2 ^ l.octave := by positivity
  have hfl : (0 : ℝ) ≤ (⌊l.esigma * df / 2 ^ l.octave + 1 / 2⌋ : ℤ) := by
    exact Int.cast_nonneg (Int.floor_nonneg.2 (by linarith))
  unfold isOut candidate InsideBy smax
  simp only [decide_eq_false_iff_not, roundAway_nonneg hq]
  set r := 10 * √2 * ((⌊l.esigma * df / 2 ^ l.octave + 1 / 2⌋ : ℤ) : ℝ) with hrdef
  have hr0 : 0 ≤ r := by positivity
  have hx0 : (0 : ℝ) ≤ (p.x : ℝ) + r := by positivity
  have hy0 : (0 : ℝ) ≤ (p.y : ℝ) + r := by positivity
  have e1 : (roundAway ((p.x : ℝ) - r) - 1 < 0) ↔ ¬ ((1 / 2 : ℝ) ≤ p.x - r) := by
    rw [← one_le_roundAway]; omega
  have e2 : (roundAway ((p.y : ℝ) - r) - 1 < 0) ↔ ¬ ((1 / 2 : ℝ) ≤ p.y - r) := by
    rw [← one_le_roundAway]; omega
  have e3 : (roundAway ((p.x : ℝ) + r) + 1 ≥ (l.ldet.w : ℤ)) ↔ ¬ ((p.x : ℝ) + r < l.ldet.w - 3 / 2) := by
    have := @roundAway_lt _ hx0 ((l.ldet.w : ℤ) - 1)
    push_cast at this
    rw [show ((l.ldet.w : ℝ) - 3 / 2) = l.ldet.w - 1 - 1 / 2 by ring, ← this]; omega
  have e4 : (roundAway ((p.y : ℝ) + r) + 1 ≥ (l.ldet.h : ℤ)) ↔ ¬ ((p.y : ℝ) + r < l.ldet.h - 3 / 2) := by
    have := @roundAway_lt _ hy0 ((l.ldet.h : ℤ) - 1)
    push_cast at this
    rw [show ((l.ldet.h : ℝ) - 3 / 2) = l.ldet.h - 1 - 1 / 2 by ring, ← this]; omega
  rw [e1, e2, e3, e4]
  tauto

/-- The scales of all levels are not negative. -/
def SizesOk (df : ℝ) (levels : List DetLevel) : Prop := ∀ l ∈ levels, 0 ≤ l.esigma * df

/-- What the stored candidates inside the image are. -/
theorem stored_iff {threshold df : ℝ} {levels : List DetLevel} (hu : Usable levels) (hs : SizesOk df levels)
    {k : KeyPoint} : (∃ c ∈ (levels.zipIdx.map (levelCandidates threshold df)).flatten,
      isOut c = false ∧ k = stored c) ↔ ∃ l x y, FoundAt threshold df levels k l x y := by
  constructor
  · rintro ⟨c, hc, ho, rfl⟩
    obtain ⟨e, l, p, hl, hp, rfl⟩ := mem_candidates.1 hc
    have hmem := List.mem_of_getElem? hl
    obtain ⟨h1, h2, h3⟩ := mem_peakList.1 hp
    refine ⟨l, p.x, p.y, hl, rfl, rfl, ⟨_, (hu l hmem).1.shows_pix, h1, h2, ?_⟩, (isOut_iff (hs l hmem)).1 ho, ?_, ?_, rfl⟩
    · rw [← h3]; rfl
    · simp only [stored, candidate]; ring
    · simp only [stored, candidate]; ring
  · rintro ⟨l, x, y, h⟩
    have hmem := List.mem_of_getElem? h.level
    obtain ⟨f, hf, hp, ht, hr⟩ := h.peak
    have hwf := (hu l hmem).1.shows_pix
    have hpix : ∀ x' y', x' < l.ldet.w → y' < l.ldet.h → f x' y' = l.ldet.pix x' y' := fun x' y' hx hy =>
      Option.some.inj ((hf.2.2.2 x' y' hx hy).symm.trans (hwf.2.2.2 x' y' hx hy))
    obtain ⟨p1, p2, p3, p4, p5⟩ := hp
    have e0 := hpix x y (by omega) (by omega)
    have hp' : IsPeak l.ldet.pix l.ldet.w l.ldet.h x y := by
      refine ⟨p1, p2, p3, p4, fun x' y' q1 q2 q3 q4 hne => ?_⟩
      rw [← e0, ← hpix x' y' (by omega) (by omega)]
      exact p5 x' y' q1 q2 q3 q4 hne
    refine ⟨candidate df l k.classId ⟨x, y, l.ldet.pix x y⟩, mem_candidates.2 ⟨k.classId, l, _, h.level,
      mem_peakList.2 ⟨hp', by rw [← e0]; exact ht, rfl⟩, rfl⟩, (isOut_iff (hs l hmem)).2 ?_, ?_⟩
    · have := h.inside
      rw [h.size] at this
      exact this
    · obtain ⟨kx, ky, kr, ks, ko, kc, ka⟩ := k
      have a1 := h.atX
      have a2 := h.atY
      have a3 := h.octave
      have a4 := h.size
      have a5 := h.angle
      simp only at a1 a2 a3 a4 a5 hr
      simp only [stored, candidate, KeyPoint.mk.injEq]
      refine ⟨?_, ?_, ?_, a4, a3, trivial, a5⟩
      · rw [a1]; ring
      · rw [a2]; ring
      · rw [hr, e0]

end Verif.Akaze
