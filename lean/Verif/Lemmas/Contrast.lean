import Verif.Model.Contrast
import Verif.Spec.Contrast
import Verif.Lemmas.Image
import Mathlib.Data.Finset.Card
import Mathlib.Data.List.Count

/-!
# The histogram of gradients
-/

namespace Verif.Akaze

theorem mem_interior {w h x y : Nat} : (x, y) ∈ interior w h ↔ Inside w h x y := by
  unfold interior Inside
  simp only [List.mem_flatMap, List.mem_map, List.mem_range'_1, Prod.mk.injEq]
  constructor
  · rintro ⟨b, hb, a, ha, rfl, rfl⟩; omega
  · intro h; exact ⟨y, by omega, x, by omega, rfl, rfl⟩

theorem interior_nodup (w h : Nat) : (interior w h).Nodup := by
  unfold interior
  rw [List.nodup_flatMap]
  constructor
  · intro y _
    exact List.Nodup.map (fun a b h => (Prod.mk.inj h).1) List.nodup_range'
  · refine List.Pairwise.imp ?_ (List.nodup_range' (s := 1) (n := h - 2))
    intro a b hab
    rw [Function.onFun, List.disjoint_left]
    intro p hp hq
    obtain ⟨_, _, rfl⟩ := List.mem_map.mp hp
    obtain ⟨_, _, e⟩ := List.mem_map.mp hq
    exact hab (Prod.mk.inj e).2.symm

open Classical in
theorem count_interior (w h : Nat) (P : Nat → Nat → Prop) :
    (interior w h).countP (fun p => decide (P p.1 p.2)) = countInside w h P := by
  unfold countInside
  rw [List.countP_eq_length_filter,
    ← List.toFinset_card_of_nodup ((interior_nodup w h).filter _)]
  congr 1
  ext ⟨x, y⟩
  simp only [List.mem_toFinset, List.mem_filter, mem_interior, Finset.mem_filter, Finset.mem_product,
    Finset.mem_range, decide_eq_true_eq]
  constructor
  · intro ⟨h1, h2⟩; unfold Inside at *; exact ⟨⟨by omega, by omega⟩, h1, h2⟩
  · exact fun h => h.2

theorem squares_eq {lx ly : Img ℝ} {w h : Nat} {fx fy : Nat → Nat → ℝ} (hx : lx.Shows w h fx)
    (hy : ly.Shows w h fy) : squares lx ly (interior w h) =
      some ((interior w h).map (fun p => fx p.1 p.2 ^ 2 + fy p.1 p.2 ^ 2)) := by
  unfold squares
  refine mapM_some ?_
  rintro ⟨x, y⟩ hp
  rw [mem_interior] at hp
  unfold Inside at hp
  simp only
  rw [hx.2.2.2 x y (by omega) (by omega), hy.2.2.2 x y (by omega) (by omega)]
  rfl

theorem foldl_max_spec : ∀ (l : List ℝ) (a : ℝ), (∀ b ∈ a :: l, b ≤ l.foldl max a) ∧ l.foldl max a ∈ a :: l := by
  intro l
  induction l with
  | nil => intro a; simp
  | cons c l ih =>
    intro a
    obtain ⟨h1, h2⟩ := ih (max a c)
    rw [List.foldl_cons]
    refine ⟨?_, ?_⟩
    · intro b hb
      have hm := h1 (max a c) (by simp)
      rcases List.mem_cons.mp hb with rfl | hb
      · exact (le_max_left _ _).trans hm
      rcases List.mem_cons.mp hb with rfl | hb
      · exact (le_max_right _ _).trans hm
      · exact h1 b (by simp [hb])
    · rcases List.mem_cons.mp h2 with h | h
      · rw [h]
        rcases max_choice a c with e | e <;> rw [e] <;> simp
      · simp [h]

theorem maximum_spec {l : List ℝ} {m : ℝ} (h : maximum? l = some m) : m ∈ l ∧ ∀ b ∈ l, b ≤ m := by
  cases l with
  | nil => cases h
  | cons a l =>
    obtain rfl := Option.some.inj h
    exact ⟨(foldl_max_spec l a).2, (foldl_max_spec l a).1⟩

/-- The bin a gradient belongs into. -/
noncomputable def binOf (bins : Nat) (modg hmax : ℝ) : Nat := min ⌊(bins : ℝ) * (modg / hmax)⌋₊ (bins - 1)

theorem floor_le_bins {bins : Nat} {modg hmax : ℝ} (h0 : 0 < modg) (h1 : modg ≤ hmax) :
    ⌊(bins : ℝ) * (modg / hmax)⌋₊ ≤ bins := by
  have : modg / hmax ≤ 1 := (div_le_one (by linarith)).mpr h1
  have h2 : (bins : ℝ) * (modg / hmax) ≤ bins := by
    have := mul_le_mul_of_nonneg_left this (Nat.cast_nonneg (α := ℝ) bins)
    linarith
  have := Nat.floor_le_floor h2
  rwa [Nat.floor_natCast] at this

theorem binNumber_eq {bins : Nat} (hb : 0 < bins) {modg hmax : ℝ} (h0 : 0 < modg) (h1 : modg ≤ hmax) :
    binNumber bins modg hmax = some (binOf bins modg hmax) := by
  have := floor_le_bins (bins := bins) h0 h1
  unfold binNumber binOf
  simp only
  split
  · rw [if_neg (by omega)]; congr 1; omega
  · congr 1; omega

theorem binOf_lt_iff {bins k : Nat} (hb : 0 < bins) (hk : k ≤ bins) {modg hmax : ℝ} (h0 : 0 < modg)
    (h1 : modg ≤ hmax) : binOf bins modg hmax < k ↔ k = bins ∨ modg < hmax * k / bins := by
  have hh : 0 < hmax := by linarith
  have hb' : (0 : ℝ) < bins := by exact_mod_cast hb
  have hf : ⌊(bins : ℝ) * (modg / hmax)⌋₊ < k ↔ modg < hmax * k / bins := by
    rw [Nat.floor_lt (by positivity), lt_div_iff₀ hb', mul_div_assoc', div_lt_iff₀ hh, mul_comm modg, mul_comm hmax]
  unfold binOf
  constructor
  · intro h
    by_cases he : k = bins
    · exact Or.inl he
    · exact Or.inr (hf.mp (by omega))
  · rintro (rfl | h)
    · omega
    · have := hf.mpr h; omega

theorem fill_spec {bins : Nat} (hb : 0 < bins) {hmax : ℝ} : ∀ (sq : List ℝ),
    (∀ s ∈ sq, Real.sqrt s ≤ hmax) → ∀ (hist : List Nat) (points : Nat), hist.length = bins →
      ∃ hist', fillHistogram bins hmax sq hist points = some (hist', points + sq.countP (fun s => Real.sqrt s ≠ 0)) ∧
        hist'.length = bins ∧ ∀ k, k ≤ bins → (hist'.take k).sum = (hist.take k).sum +
          sq.countP (fun s => Real.sqrt s ≠ 0 ∧ (k = bins ∨ Real.sqrt s < hmax * k / bins)) := by
  intro sq
  induction sq with
  | nil => intro _ hist points hl; exact ⟨hist, rfl, hl, fun k _ => by simp⟩
  | cons s sq ih =>
    intro hs hist points hl
    have ih' := ih (fun t ht => hs t (by simp [ht]))
    rw [fillHistogram]
    by_cases h0 : Real.sqrt s = 0
    · simp only [h0, if_true]
      obtain ⟨hist', e, l', c'⟩ := ih' hist points hl
      refine ⟨hist', ?_, l', ?_⟩
      · rw [e]
        simp only [List.countP_cons, ne_eq, h0, not_true_eq_false, decide_false, Bool.false_eq_true, if_false,
          Nat.add_zero]
      · intro k hk
        rw [c' k hk]
        simp only [List.countP_cons, ne_eq, h0, not_true_eq_false, false_and, decide_false, Bool.false_eq_true,
          if_false, Nat.add_zero]
    · have hpos : 0 < Real.sqrt s := lt_of_le_of_ne (Real.sqrt_nonneg s) (Ne.symm h0)
      have hle := hs s (by simp)
      simp only [if_neg h0, binNumber_eq hb hpos hle]
      have hbin : binOf bins (Real.sqrt s) hmax < hist.length := by
        rw [hl]; exact (binOf_lt_iff hb le_rfl hpos hle).mpr (Or.inl rfl)
      simp only [bump, if_pos hbin, Option.bind_eq_bind, Option.bind_some]
      obtain ⟨hist', e, l', c'⟩ := ih' (hist.set (binOf bins (Real.sqrt s) hmax)
        (hist.getD (binOf bins (Real.sqrt s) hmax) 0 + 1)) (points + 1) (by rw [List.length_set]; exact hl)
      refine ⟨hist', ?_, l', ?_⟩
      · rw [e]
        simp only [List.countP_cons, ne_eq, h0, not_false_eq_true, decide_true, if_true]
        congr 2; omega
      · intro k hk
        rw [c' k hk]
        have hset : ((hist.set (binOf bins (Real.sqrt s) hmax)
            (hist.getD (binOf bins (Real.sqrt s) hmax) 0 + 1)).take k).sum =
            (hist.take k).sum + if binOf bins (Real.sqrt s) hmax < k then 1 else 0 := by
          generalize binOf bins (Real.sqrt s) hmax = b at hbin
          clear * - hbin
          induction hist generalizing b k with
          | nil => simp at hbin
          | cons c hist ih =>
            cases k with
            | zero => simp
            | succ k =>
              cases b with
              | zero => simp; omega
              | succ b =>
                have := ih (k := k) (b := b) (by simpa using hbin)
                simp only [List.set_cons_succ, List.getD_cons_succ, List.take_succ_cons, List.sum_cons, this,
                  Nat.add_lt_add_iff_right]
                omega
        rw [hset]
        simp only [List.countP_cons, ne_eq, h0, not_false_eq_true, true_and, decide_eq_true_eq]
        rw [if_congr (binOf_lt_iff hb hk hpos hle) rfl rfl]
        omega

theorem walk_spec (threshold : Nat) : ∀ (hist : List Nat) (e k : Nat), ∃ j, j ≤ hist.length ∧
    walkBins threshold hist e k = (e + (hist.take j).sum, k + j) ∧
      (threshold ≤ e + (hist.take j).sum ∨ j = hist.length) ∧
        (0 < j → e + (hist.take (j - 1)).sum < threshold) := by
  intro hist
  induction hist with
  | nil => intro e k; exact ⟨0, by simp, by simp [walkBins], by simp, by simp⟩
  | cons b hist ih =>
    intro e k
    rw [walkBins]
    by_cases h : e < threshold
    · rw [if_pos h]
      obtain ⟨j, h1, h2, h3, h4⟩ := ih (e + b) (k + 1)
      refine ⟨j + 1, by simp [h1], ?_, ?_, ?_⟩
      · rw [h2]; simp; omega
      · rcases h3 with h3 | h3
        · left; simp; omega
        · right; simp [h3]
      · intro _
        cases j with
        | zero => simpa using h
        | succ j =>
          have := h4 (by omega)
          simp at this ⊢
          omega
    · rw [if_neg h]
      exact ⟨0, by simp, by simp, by left; simp; omega, by simp⟩

end Verif.Akaze
