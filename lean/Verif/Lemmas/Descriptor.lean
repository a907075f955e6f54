import Verif.Spec.Descriptor
import Verif.Lemmas.Orient
import Verif.Lemmas.Image
import Mathlib.Tactic.IntervalCases

/-!
# Lemmas: descriptors
-/

namespace Verif.Akaze

/-! ## Loops that may stop -/

open Classical in
theorem mapM_ite {α β ε : Type _} {e : ε} {g : α → Except ε β} {P : α → Prop} {f : α → β} : ∀ {l : List α},
    (∀ a ∈ l, g a = if P a then .ok (f a) else .error e) →
    l.mapM g = if ∀ a ∈ l, P a then .ok (l.map f) else .error e
  | [], _ => by simp; rfl
  | a :: l, h => by
    have ha' := h a List.mem_cons_self
    have hl' := @mapM_ite _ _ _ e g P f l (fun b hb => h b (List.mem_cons_of_mem _ hb))
    rw [List.mapM_cons, ha', hl']
    by_cases ha : P a
    · by_cases hl : ∀ b ∈ l, P b
      · rw [if_pos ha, if_pos hl, if_pos (by simpa [ha] using hl)]; rfl
      · rw [if_pos ha, if_neg hl, if_neg (fun h => hl (fun b hb => h b (List.mem_cons_of_mem _ hb)))]; rfl
    · rw [if_neg ha, if_neg (show ¬ ∀ b ∈ a :: l, P b from fun h => ha (h a List.mem_cons_self))]; rfl

/-! ## Samples -/

/-- The contributions of a sample to the three sums. -/
noncomputable def contribution (channels : Nat) (ft fx fy : Nat → Nat → ℝ) (fr : Frame) (k l : ℤ) : ℝ × ℝ × ℝ :=
  (channelValue channels ft fx fy fr 0 k l, if 1 < channels then channelValue channels ft fx fy fr 1 k l else 0,
    if 2 < channels then channelValue channels ft fx fy fr 2 k l else 0)

open Classical in
theorem sampleValue_eq {channels : Nat} {lv : DetLevel} {fr : Frame} {w h : Nat} {ft fx fy : Nat → Nat → ℝ}
    (ht : lv.lt.Shows w h ft) (hx : lv.lx.Shows w h fx) (hy : lv.ly.Shows w h fy) (hch : channels ≤ 3) (k l : ℤ) :
    sampleValue channels lv fr k l =
      if InImage w h fr k l then .ok (contribution channels ft fx fy fr k l) else .error .outOfBounds := by
  have eX : fr.xf + (-(l : ℝ) * fr.si * fr.scale + k * fr.co * fr.scale) = patternX fr k l := by
    unfold patternX; ring
  have eY : fr.yf + ((l : ℝ) * fr.co * fr.scale + k * fr.si * fr.scale) = patternY fr k l := by
    unfold patternY; ring
  unfold sampleValue
  simp only [eX, eY, ht.1, ht.2.1]
  by_cases hin : InImage w h fr k l
  · have hin' := hin
    obtain ⟨h1, h2, h3, h4⟩ := hin'
    rw [if_pos hin, if_neg (by simp [h1, h2, h3, h4]), ht.2.2.2 _ _ (by omega) (by omega),
      hx.2.2.2 _ _ (by omega) (by omega), hy.2.2.2 _ _ (by omega) (by omega)]
    unfold contribution channelValue atPattern
    interval_cases channels
    · rfl
    · rfl
    · simp only [orPanic]
      simp only [bind, Except.bind, pure, Except.pure]
      norm_num
      ring
    · simp only [orPanic]
      simp only [bind, Except.bind, pure, Except.pure]
      norm_num
      ring
  · rw [if_neg hin, if_pos]
    by_contra hc
    push Not at hc
    exact hin ⟨hc.1.1, hc.1.2, hc.2.1, hc.2.2⟩

theorem sum_flatMap' {K α β : Type _} [AddCommMonoid K] (f : β → K) (g : α → List β) : ∀ l : List α,
    ((l.flatMap g).map f).sum = (l.map (fun a => ((g a).map f).sum)).sum
  | [] => rfl
  | a :: l => by rw [List.flatMap_cons, List.map_append, List.sum_append, sum_flatMap' f g l]; simp

theorem sum_cell (f : ℤ → ℤ → ℝ) (i j : ℤ) (n : Nat) :
    (((intRange i n).flatMap (fun k => (intRange j n).map (fun l => (k, l)))).map (fun p => f p.1 p.2)).sum =
      ∑ a ∈ Finset.range n, ∑ b ∈ Finset.range n, f (i + a) (j + b) := by
  rw [sum_flatMap']
  unfold intRange
  simp only [List.map_map]
  rw [show ((fun a => ((List.range n).map ((fun p : ℤ × ℤ => f p.1 p.2) ∘ (fun l => (a, l)) ∘ fun i : ℕ => j + ↑i)).sum) ∘
    fun i' : ℕ => i + ↑i') = fun a : ℕ => ∑ b ∈ Finset.range n, f (i + a) (j + b) from ?_, sum_range_map]
  funext a
  simp only [Function.comp, sum_range_map]

theorem length_cell (i j : ℤ) (n : Nat) :
    ((intRange i n).flatMap (fun k => (intRange j n).map (fun l => (k, l)))).length = n * n := by
  unfold intRange
  simp [List.length_flatMap, Function.comp_def]

theorem mem_intRange {a x : ℤ} {n : Nat} : x ∈ intRange a n ↔ a ≤ x ∧ x < a + n := by
  unfold intRange
  simp only [List.mem_map, List.mem_range]
  constructor
  · rintro ⟨i, hi, rfl⟩; omega
  · rintro ⟨h1, h2⟩; exact ⟨(x - a).toNat, by omega, by omega⟩

/-- The sum over a cell divided by the number of samples. -/
noncomputable def boxMean (channels : Nat) (ft fx fy : Nat → Nat → ℝ) (fr : Frame) (step c : Nat) (i j : ℤ) : ℝ :=
  (∑ a ∈ Finset.range step, ∑ b ∈ Finset.range step, channelValue channels ft fx fy fr c (i + a) (j + b)) /
    (step : ℝ) ^ 2

/-- The samples of a cell are in the image. -/
def BoxInside (w h : Nat) (fr : Frame) (step : Nat) (i j : ℤ) : Prop :=
  ∀ k l : ℤ, i ≤ k → k < i + step → j ≤ l → l < j + step → InImage w h fr k l

/-- The means of a cell as far as they are stored. -/
noncomputable def boxMeans (channels : Nat) (ft fx fy : Nat → Nat → ℝ) (fr : Frame) (step : Nat) (i j : ℤ) : ℝ × ℝ × ℝ :=
  (boxMean channels ft fx fy fr step 0 i j, if 1 < channels then boxMean channels ft fx fy fr step 1 i j else 0,
    if 2 < channels then boxMean channels ft fx fy fr step 2 i j else 0)

open Classical in
theorem cellValue_eq {channels : Nat} {lv : DetLevel} {fr : Frame} {w h : Nat} {ft fx fy : Nat → Nat → ℝ}
    (ht : lv.lt.Shows w h ft) (hx : lv.lx.Shows w h fx) (hy : lv.ly.Shows w h fy) (hch : channels ≤ 3) (step : Nat)
    (i j : ℤ) : cellValue channels step lv fr i j =
      if BoxInside w h fr step i j then .ok (boxMeans channels ft fx fy fr step i j) else .error .outOfBounds := by
  unfold cellValue
  rw [mapM_ite (e := Fault.outOfBounds) (P := fun p : ℤ × ℤ => InImage w h fr p.1 p.2)
    (f := fun p => contribution channels ft fx fy fr p.1 p.2) (fun p _ => sampleValue_eq ht hx hy hch p.1 p.2)]
  have hiff : (∀ p ∈ (intRange i step).flatMap (fun k => (intRange j step).map (fun l => (k, l))),
      InImage w h fr p.1 p.2) ↔ BoxInside w h fr step i j := by
    constructor
    · intro hall k l h1 h2 h3 h4
      exact hall (k, l) (List.mem_flatMap.2 ⟨k, mem_intRange.2 ⟨h1, h2⟩, List.mem_map.2
        ⟨l, mem_intRange.2 ⟨h3, h4⟩, rfl⟩⟩)
    · intro hb p hp
      obtain ⟨k, hk, hp⟩ := List.mem_flatMap.1 hp
      obtain ⟨l, hl, rfl⟩ := List.mem_map.1 hp
      rw [mem_intRange] at hk hl
      exact hb k l hk.1 hk.2 hl.1 hl.2
  by_cases hb : BoxInside w h fr step i j
  · rw [if_pos hb, if_pos (hiff.2 hb)]
    simp only [bind, Except.bind, pure, Except.pure, List.length_map, length_cell, List.map_map]
    congr 1
    have e1 := sum_cell (fun k l => (contribution channels ft fx fy fr k l).1) i j step
    have e2 := sum_cell (fun k l => (contribution channels ft fx fy fr k l).2.1) i j step
    have e3 := sum_cell (fun k l => (contribution channels ft fx fy fr k l).2.2) i j step
    simp only [Function.comp_def]
    rw [e1, e2, e3]
    unfold boxMeans boxMean contribution
    have hn : (((step * step : ℕ)) : ℝ) = (step : ℝ) ^ 2 := by push_cast; ring
    rw [hn]
    by_cases c1 : 1 < channels
    · by_cases c2 : 2 < channels
      · simp only [c1, c2, if_true]
      · simp only [c1, c2, if_true, if_false, Finset.sum_const_zero, zero_div]
    · have c2 : ¬ 2 < channels := by omega
      simp only [c1, c2, if_false, Finset.sum_const_zero, zero_div]
  · rw [if_neg hb, if_neg (fun hall => hb (hiff.1 hall))]
    rfl

/-! ## The buffer -/

/-- Component `c` of a triple. -/
def comp3 (v : ℝ × ℝ × ℝ) (c : Nat) : ℝ := if c = 0 then v.1 else if c = 1 then v.2.1 else v.2.2

theorem storeCell_eq {channels : Nat} (hch : channels ≤ 3) {values : List ℝ} {pos : Nat} (v : ℝ × ℝ × ℝ)
    (h1 : pos < values.length) (h2 : pos + channels ≤ values.length) :
    ∃ out, storeCell channels (values, pos) v = .ok (out, pos + channels) ∧ out.length = values.length ∧
      (∀ q < pos, out[q]? = values[q]?) ∧ ∀ c < channels, out[pos + c]? = some (comp3 v c) := by
  unfold storeCell writeIf writeAt
  interval_cases channels
  · refine ⟨values.set pos v.1, by simp [h1]; rfl, by simp, ?_, by omega⟩
    intro q hq; rw [List.getElem?_set_ne (by omega)]
  · refine ⟨values.set pos v.1, by simp [h1]; rfl, by simp, ?_, ?_⟩
    · intro q hq; rw [List.getElem?_set_ne (by omega)]
    · intro c hc
      interval_cases c
      simp [h1, comp3]
  · refine ⟨(values.set pos v.1).set (pos + 1) v.2.1, ?_, by simp, ?_, ?_⟩
    · have : pos + 1 < values.length := by omega
      simp [h1, this, bind, Except.bind, pure, Except.pure]
    · intro q hq; rw [List.getElem?_set_ne (by omega), List.getElem?_set_ne (by omega)]
    · intro c hc
      interval_cases c
      · rw [List.getElem?_set_ne (by omega)]; simp [h1, comp3]
      · rw [List.getElem?_set_self (by simp; omega)]; simp [comp3]
  · refine ⟨((values.set pos v.1).set (pos + 1) v.2.1).set (pos + 2) v.2.2, ?_, by simp, ?_, ?_⟩
    · have : pos + 1 < values.length := by omega
      have h3 : pos + 2 < values.length := by omega
      simp [h1, this, h3, bind, Except.bind, pure, Except.pure]
    · intro q hq
      rw [List.getElem?_set_ne (by omega), List.getElem?_set_ne (by omega), List.getElem?_set_ne (by omega)]
    · intro c hc
      interval_cases c
      · rw [List.getElem?_set_ne (by omega), List.getElem?_set_ne (by omega)]; simp [h1, comp3]
      · rw [List.getElem?_set_ne (by omega), List.getElem?_set_self (by simp; omega)]; simp [comp3]
      · rw [List.getElem?_set_self (by simp; omega)]; simp [comp3]

open Classical in
theorem fold_cells {channels : Nat} (hch : channels ≤ 3) {g : ℤ × ℤ → Except Fault (ℝ × ℝ × ℝ)} {P : ℤ × ℤ → Prop}
    {f : ℤ × ℤ → ℝ × ℝ × ℝ} (hg : ∀ c, g c = if P c then .ok (f c) else .error .outOfBounds) :
    ∀ (cells : List (ℤ × ℤ)) (values : List ℝ) (pos : Nat), pos < values.length ∨ cells = [] →
      pos + channels * cells.length ≤ values.length →
    ∃ out, cells.foldlM (fun st c => do
        let v ← g c
        storeCell channels st v) (values, pos) =
        (if ∀ c ∈ cells, P c then .ok (out, pos + channels * cells.length) else .error .outOfBounds) ∧
      out.length = values.length ∧ (∀ q < pos, out[q]? = values[q]?) ∧
      ((∀ c ∈ cells, P c) → ∀ n c, c < channels → ∀ hn : n < cells.length,
        out[pos + channels * n + c]? = some (comp3 (f cells[n]) c))
  | [], values, pos, _, _ => by
    refine ⟨values, ?_, rfl, fun _ _ => rfl, by simp⟩
    simp [pure, Except.pure]
  | a :: cells, values, pos, h1, h2 => by
    have h1 : pos < values.length := by simpa using h1
    rw [List.length_cons, Nat.mul_succ] at h2
    obtain ⟨o1, e1, l1, k1, v1⟩ := storeCell_eq hch (f a) h1 (by omega)
    have hne : pos + channels < o1.length ∨ cells = [] := by
      rcases cells with _ | ⟨b, cells⟩
      · exact Or.inr rfl
      · left
        rw [List.length_cons, Nat.mul_succ] at h2
        rcases Nat.eq_zero_or_pos channels with hz | hz
        · omega
        · have := Nat.zero_le (channels * cells.length)
          omega
    obtain ⟨o2, e2, l2, k2, v2⟩ := fold_cells hch hg cells o1 (pos + channels) hne (by omega)
    refine ⟨o2, ?_, by rw [l2, l1], fun q hq => by rw [k2 q (by omega), k1 q hq], ?_⟩
    · rw [List.foldlM_cons, hg a]
      by_cases ha : P a
      · rw [if_pos ha]
        have : (do
            let v ← Except.ok (f a)
            storeCell channels (values, pos) v) = Except.ok (o1, pos + channels) := e1
        rw [this]
        refine (show _ = _ from e2).trans ?_
        by_cases hl : ∀ b ∈ cells, P b
        · rw [if_pos hl, if_pos (by simpa [ha] using hl), List.length_cons, Nat.mul_succ]
          congr 2; omega
        · rw [if_neg hl, if_neg (fun h => hl (fun b hb => h b (List.mem_cons_of_mem _ hb)))]
      · rw [if_neg ha, if_neg (fun h => ha (h a List.mem_cons_self))]; rfl
    · intro hall n c hc hn
      rcases n with _ | n
      · rw [Nat.mul_zero, Nat.add_zero, k2 _ (by omega), v1 c hc]; rfl
      · have := v2 (fun b hb => hall b (List.mem_cons_of_mem _ hb)) n c hc (by simpa using hn)
        rw [show pos + channels * (n + 1) + c = pos + channels + channels * n + c by rw [Nat.mul_succ]; omega, this]
        rfl

/-! ## The cells -/

theorem length_starts (p step : Nat) : (starts p step).length = (2 * p + step - 1) / step := by simp [starts]

theorem mem_starts {p step : Nat} {i : ℤ} : i ∈ starts p step ↔
    ∃ n < (2 * p + step - 1) / step, i = -(p : ℤ) + n * step := by
  unfold starts
  simp only [List.mem_map, List.mem_range]
  constructor
  · rintro ⟨n, hn, rfl⟩; exact ⟨n, hn, rfl⟩
  · rintro ⟨n, hn, rfl⟩; exact ⟨n, hn, rfl⟩

/-- Where the cells begin. -/
def cellList (p step : Nat) : List (ℤ × ℤ) := (starts p step).flatMap (fun i => (starts p step).map (fun j => (i, j)))

theorem length_cellList (p step : Nat) :
    (cellList p step).length = ((2 * p + step - 1) / step) * ((2 * p + step - 1) / step) := by
  unfold cellList
  simp [List.length_flatMap, length_starts]

theorem getElem?_product {α : Type _} (a : List α) : ∀ (l : List α) (n : Nat), 0 < a.length →
    (l.flatMap (fun i => a.map (fun j => (i, j))))[n]? =
      (do pure (← l[n / a.length]?, ← a[n % a.length]?))
  | [], n, _ => by simp
  | x :: l, n, ha => by
    rw [List.flatMap_cons, List.getElem?_append]
    split
    · next h =>
      rw [List.length_map] at h
      rw [Nat.div_eq_of_lt h, Nat.mod_eq_of_lt h]
      simp [h]
    · next h =>
      rw [List.length_map] at h ⊢
      rw [getElem?_product a l (n - a.length) ha]
      have h1 : n / a.length = (n - a.length) / a.length + 1 := Nat.div_eq_sub_div ha (by omega)
      have h2 : n % a.length = (n - a.length) % a.length := (Nat.mod_eq_sub_mod (by omega))
      rw [h1, h2, List.getElem?_cons_succ]

theorem getElem_cellList {p step n : Nat} (hs : 0 < (2 * p + step - 1) / step) (hn : n < (cellList p step).length) :
    (cellList p step)[n] = (-(p : ℤ) + (n / ((2 * p + step - 1) / step) : ℕ) * step,
      -(p : ℤ) + (n % ((2 * p + step - 1) / step) : ℕ) * step) := by
  have h := List.getElem?_eq_getElem hn
  have h' := getElem?_product (starts p step) (starts p step) n (by rw [length_starts]; exact hs)
  rw [length_starts] at h'
  have hlen := hn
  rw [length_cellList] at hlen
  have e1 : (starts p step)[n / ((2 * p + step - 1) / step)]? =
      some (-(p : ℤ) + (n / ((2 * p + step - 1) / step) : ℕ) * step) := by
    unfold starts
    rw [List.getElem?_map, List.getElem?_range (Nat.div_lt_of_lt_mul hlen)]; rfl
  have e2 : (starts p step)[n % ((2 * p + step - 1) / step)]? =
      some (-(p : ℤ) + (n % ((2 * p + step - 1) / step) : ℕ) * step) := by
    unfold starts
    rw [List.getElem?_map, List.getElem?_range (Nat.mod_lt _ hs)]; rfl
  rw [e1, e2] at h'
  unfold cellList at h ⊢
  rw [h'] at h
  exact (Option.some.inj h).symm

theorem cell_count {p m : Nat} (hp : 4 ≤ p) (hm : m ∈ [2, 3, 4]) :
    (2 * p + cellWidth p m - 1) / cellWidth p m = m := by
  simp only [List.mem_cons, List.not_mem_nil, or_false] at hm
  have h : 0 < cellWidth p m ∧ (m - 1) * cellWidth p m < 2 * p ∧ 2 * p ≤ m * cellWidth p m := by
    unfold cellWidth
    rcases hm with rfl | rfl | rfl <;> refine ⟨?_, ?_, ?_⟩ <;> omega
  obtain ⟨h0, h1, h2⟩ := h
  refine Nat.div_eq_of_lt_le ?_ ?_
  · rcases hm with rfl | rfl | rfl <;> omega
  · have : (m + 1) * cellWidth p m = m * cellWidth p m + cellWidth p m := Nat.succ_mul _ _
    omega

theorem cell_count_le {p m : Nat} (hp : 1 ≤ p) (hm : m ∈ [2, 3, 4]) :
    (2 * p + cellWidth p m - 1) / cellWidth p m ≤ m ∧ 0 < cellWidth p m ∧
      0 < (2 * p + cellWidth p m - 1) / cellWidth p m := by
  simp only [List.mem_cons, List.not_mem_nil, or_false] at hm
  have h : 0 < cellWidth p m ∧ 2 * p ≤ m * cellWidth p m := by
    unfold cellWidth
    rcases hm with rfl | rfl | rfl <;> refine ⟨?_, ?_⟩ <;> omega
  obtain ⟨h0, h2⟩ := h
  refine ⟨?_, h0, Nat.div_pos (by omega) h0⟩
  refine Nat.le_of_lt_succ (Nat.div_lt_of_lt_mul ?_)
  have : cellWidth p m * m.succ = m * cellWidth p m + cellWidth p m := by rw [Nat.mul_succ, Nat.mul_comm]
  omega

theorem step_eq (p : Nat) {m : Nat} {r : ℝ} (hm : (m, r) ∈ [(2, 1), (3, 2 / 3), (4, 1 / 2)]) :
    ⌈(p : ℝ) * r⌉₊ = cellWidth p m := by
  have key : ∀ m : Nat, 0 < m → (p : ℝ) * r = (2 * p : ℕ) / (m : ℕ) → ⌈(p : ℝ) * r⌉₊ = cellWidth p m := by
    intro m hm h
    rw [h]
    unfold cellWidth
    apply le_antisymm
    · rw [Nat.ceil_le, div_le_iff₀ (by exact_mod_cast hm)]
      have : 2 * p ≤ (2 * p + m - 1) / m * m := by
        have h1 := Nat.div_add_mod (2 * p + m - 1) m
        have h2 := Nat.mod_lt (2 * p + m - 1) hm
        rw [Nat.mul_comm] at h1
        omega
      exact_mod_cast this
    · rw [Nat.div_le_iff_le_mul_add_pred hm]
      have h1 : ((2 * p : ℕ) : ℝ) / m ≤ ⌈((2 * p : ℕ) : ℝ) / m⌉₊ := Nat.le_ceil _
      rw [div_le_iff₀ (by exact_mod_cast hm)] at h1
      have h2 : 2 * p ≤ ⌈((2 * p : ℕ) : ℝ) / m⌉₊ * m := by exact_mod_cast h1
      have h3 := Nat.mul_comm ⌈((2 * p : ℕ) : ℝ) / m⌉₊ m
      omega
  simp only [List.mem_cons, Prod.mk.injEq, List.not_mem_nil, or_false] at hm
  rcases hm with ⟨rfl, rfl⟩ | ⟨rfl, rfl⟩ | ⟨rfl, rfl⟩
  · exact key 2 (by norm_num) (by push_cast; ring)
  · exact key 3 (by norm_num) (by push_cast; ring)
  · exact key 4 (by norm_num) (by push_cast; ring)

/-! ## The bits -/

/-- The descriptor holds exactly these bits. -/
def Holds (desc : List (BitVec 8)) (bits : List Bool) : Prop :=
  desc.length = 64 ∧ ∀ n < 512, bitAt desc n = bits.getD n false

theorem holds_zero : Holds (List.replicate 64 0) [] := by
  refine ⟨by simp, ?_⟩
  intro n hn
  unfold bitAt
  have : n / 8 < 64 := by omega
  rw [List.getD_eq_getElem?_getD, List.getElem?_replicate, if_pos this]
  simp

theorem compareOne_eq {channels : Nat} {values : List ℝ} {desc : List (BitVec 8)} {bits : List Bool}
    (hd : Holds desc bits) (hb : bits.length < 512) {c : Nat × Nat × Nat} {u v : ℝ}
    (hu : values[channels * c.2.1 + c.1]? = some u) (hv : values[channels * c.2.2 + c.1]? = some v) :
    ∃ desc', compareOne channels values (desc, bits.length) c = .ok (desc', bits.length + 1) ∧
      Holds desc' (bits ++ [decide (v < u)]) := by
  obtain ⟨h1, h2⟩ := hd
  have hq : bits.length / 8 < desc.length := by omega
  refine ⟨desc.set (bits.length / 8) (desc[bits.length / 8] ||| ((if u > v then (1 : BitVec 8) else 0) <<<
    (bits.length % 8))), ?_, by simpa using h1, ?_⟩
  · unfold compareOne writeAt
    simp only [hu, hv, orPanic, List.getElem?_eq_getElem hq, hq, if_true, bind, Except.bind, pure, Except.pure]
  · intro n hn
    unfold bitAt
    by_cases hnq : n / 8 = bits.length / 8
    · rw [hnq, List.getD_eq_getElem?_getD, List.getElem?_set_self (by omega), Option.getD_some, BitVec.getLsbD_or]
      have hold : desc[bits.length / 8].getLsbD (n % 8) = bits.getD n false := by
        rw [← h2 n hn]
        unfold bitAt
        rw [hnq, List.getD_eq_getElem?_getD, List.getElem?_eq_getElem hq, Option.getD_some]
      rw [hold]
      by_cases hneq : n = bits.length
      · subst hneq
        rw [List.getD_eq_getElem?_getD, List.getD_eq_getElem?_getD, List.getElem?_eq_none le_rfl]
        have : bits.length % 8 < 8 := Nat.mod_lt _ (by norm_num)
        by_cases hlt : v < u
        · simp [hlt, this]
        · simp [hlt]
      · have : ((if u > v then (1 : BitVec 8) else 0) <<< (bits.length % 8)).getLsbD (n % 8) = false := by
          rw [BitVec.getLsbD_shiftLeft]
          by_cases hlt : n % 8 < bits.length % 8
          · simp [hlt]
          · have hne : n % 8 - bits.length % 8 ≠ 0 := by omega
            split
            · have : (1 : BitVec 8).getLsbD (n % 8 - bits.length % 8) = false := by
                have : n % 8 - bits.length % 8 < 8 := by omega
                generalize n % 8 - bits.length % 8 = x at *
                interval_cases x <;> first | rfl | exact absurd rfl hne
              rw [this, Bool.and_false]
            · simp
        rw [this, Bool.or_false, List.getD_eq_getElem?_getD, List.getD_eq_getElem?_getD, List.getElem?_append]
        split
        · rfl
        · rw [List.getElem?_eq_none (by omega), List.getElem?_eq_none (by simp; omega)]
    · rw [List.getD_eq_getElem?_getD, List.getElem?_set_ne (by omega), ← List.getD_eq_getElem?_getD]
      have := h2 n hn
      unfold bitAt at this
      rw [this, List.getD_eq_getElem?_getD, List.getD_eq_getElem?_getD, List.getElem?_append]
      split
      · rfl
      · rw [List.getElem?_eq_none (by omega), List.getElem?_eq_none]
        simp only [List.length_singleton]
        omega

theorem fold_compare {channels : Nat} {values : List ℝ} {val : Nat → Nat → ℝ} :
    ∀ (cs : List (Nat × Nat × Nat)) (desc : List (BitVec 8)) (bits : List Bool), Holds desc bits →
      bits.length + cs.length ≤ 512 →
      (∀ c ∈ cs, values[channels * c.2.1 + c.1]? = some (val c.1 c.2.1) ∧
        values[channels * c.2.2 + c.1]? = some (val c.1 c.2.2)) →
    ∃ desc', cs.foldlM (compareOne channels values) (desc, bits.length) = .ok (desc', bits.length + cs.length) ∧
      Holds desc' (bits ++ cs.map (fun c => decide (val c.1 c.2.2 < val c.1 c.2.1)))
  | [], desc, bits, hd, _, _ => ⟨desc, by simp [pure, Except.pure], by simpa using hd⟩
  | c :: cs, desc, bits, hd, hl, hv => by
    rw [List.length_cons] at hl
    obtain ⟨d1, e1, hd1⟩ := compareOne_eq (channels := channels) hd (by omega) (hv c List.mem_cons_self).1
      (hv c List.mem_cons_self).2
    obtain ⟨d2, e2, hd2⟩ := fold_compare cs d1 _ hd1 (by simp; omega) (fun x hx => hv x (List.mem_cons_of_mem _ hx))
    refine ⟨d2, ?_, ?_⟩
    · rw [List.foldlM_cons, e1]
      rw [List.length_append, List.length_singleton] at e2
      refine (show _ = _ from e2).trans ?_
      rw [List.length_cons]
      congr 2; omega
    · simpa using hd2

/-! ## One level of the pattern -/

theorem comp3_boxMeans {channels : Nat} (hch : channels ≤ 3) {ft fx fy : Nat → Nat → ℝ} {fr : Frame} {step : Nat}
    {i j : ℤ} {c : Nat} (hc : c < channels) :
    comp3 (boxMeans channels ft fx fy fr step i j) c = boxMean channels ft fx fy fr step c i j := by
  unfold comp3 boxMeans
  have : c < 3 := by omega
  interval_cases c
  · simp
  · simp [hc]
  · simp [hc]

open Classical in
theorem fillValues_eq {channels : Nat} {lv : DetLevel} {fr : Frame} {w h : Nat} {ft fx fy : Nat → Nat → ℝ}
    (ht : lv.lt.Shows w h ft) (hx : lv.lx.Shows w h fx) (hy : lv.ly.Shows w h fy) (hch : channels ≤ 3) {p m : Nat}
    (hp : 1 ≤ p) (hm : m ∈ [2, 3, 4]) {values : List ℝ} (hv : values.length = 48) :
    ∃ out, fillValues p channels (cellWidth p m) lv fr values =
        (if ∀ c ∈ cellList p (cellWidth p m), BoxInside w h fr (cellWidth p m) c.1 c.2 then .ok out
          else .error .outOfBounds) ∧
      out.length = 48 ∧ (4 ≤ p → (∀ c ∈ cellList p (cellWidth p m), BoxInside w h fr (cellWidth p m) c.1 c.2) →
        ∀ n c, n < m * m → c < channels → out[channels * n + c]? = some (cellMean p channels ft fx fy fr m c n)) := by
  obtain ⟨h1, h2, h3⟩ := cell_count_le hp hm
  have hlen : (cellList p (cellWidth p m)).length ≤ 16 := by
    rw [length_cellList]
    have : m ≤ 4 := by simp at hm; omega
    calc _ ≤ m * m := Nat.mul_le_mul h1 h1
      _ ≤ 4 * 4 := Nat.mul_le_mul this this
      _ = 16 := rfl
  obtain ⟨out, e, l, _, v⟩ := fold_cells hch (P := fun c => BoxInside w h fr (cellWidth p m) c.1 c.2)
    (f := fun c => boxMeans channels ft fx fy fr (cellWidth p m) c.1 c.2)
    (fun c => cellValue_eq (channels := channels) ht hx hy hch (cellWidth p m) c.1 c.2) (cellList p (cellWidth p m)) values
    0 (Or.inl (by omega)) (by rw [hv, Nat.zero_add]; exact (Nat.mul_le_mul hch hlen).trans (by norm_num))
  refine ⟨out, ?_, l.trans hv, ?_⟩
  · unfold fillValues
    rw [if_neg (by omega)]
    unfold cellList at e ⊢
    rw [e]
    split <;> rfl
  · intro hp4 hall n c hn hc
    have hcount := cell_count hp4 hm
    have hn' : n < (cellList p (cellWidth p m)).length := by rw [length_cellList, hcount]; exact hn
    have := v hall n c hc hn'
    rw [Nat.zero_add] at this
    rw [this, comp3_boxMeans hch hc, getElem_cellList h3 hn', hcount]
    rfl

theorem comparisons_eq (channels m : Nat) (val : Nat → Nat → ℝ) :
    (comparisons channels m).map (fun c => decide (val c.1 c.2.2 < val c.1 c.2.1)) =
      (List.range channels).flatMap (fun c => (pairs m).map (fun ij => decide (val c ij.2 < val c ij.1))) := by
  unfold comparisons pairs
  simp only [List.map_flatMap, List.map_map, Function.comp_def]

theorem mem_comparisons {channels count : Nat} {c : Nat × Nat × Nat} (h : c ∈ comparisons channels count) :
    c.1 < channels ∧ c.2.1 < count ∧ c.2.2 < count := by
  unfold comparisons at h
  obtain ⟨pos, h1, h⟩ := List.mem_flatMap.1 h
  obtain ⟨i, h2, h⟩ := List.mem_flatMap.1 h
  obtain ⟨j, h3, rfl⟩ := List.mem_map.1 h
  simp only [List.mem_range, List.mem_range'_1] at h1 h2 h3
  exact ⟨h1, h2, by simp only; omega⟩

theorem length_comparisons {channels m : Nat} (hm : m ∈ [2, 3, 4]) :
    (comparisons channels (m * m)).length = channels * (m * m * (m * m - 1) / 2) := by
  simp only [List.mem_cons, List.not_mem_nil, or_false] at hm
  have h : (comparisons channels (m * m)).length =
      channels * ((List.range (m * m)).map (fun i => m * m - (i + 1))).sum := by
    simp [comparisons, List.length_flatMap]
  rw [h]
  rcases hm with rfl | rfl | rfl <;> rfl

theorem binaryComparisons_eq {channels m : Nat} (hch : channels ≤ 3) (hm : m ∈ [2, 3, 4]) {values : List ℝ}
    (hv : values.length = 48) {desc : List (BitVec 8)} {bits : List Bool} (hd : Holds desc bits)
    (hl : bits.length + channels * (m * m * (m * m - 1) / 2) ≤ 512) :
    ∃ desc' bits', binaryComparisons channels (m * m) values (desc, bits.length) = .ok (desc', (bits ++ bits').length) ∧
      Holds desc' (bits ++ bits') ∧ bits'.length = channels * (m * m * (m * m - 1) / 2) ∧
      ∀ val : Nat → Nat → ℝ, (∀ n c, n < m * m → c < channels → values[channels * n + c]? = some (val c n)) →
        bits' = (List.range channels).flatMap (fun c => (pairs (m * m)).map (fun ij => decide (val c ij.2 < val c ij.1))) := by
  have hm4 : m * m ≤ 16 := by
    have : m ≤ 4 := by simp at hm; omega
    exact (Nat.mul_le_mul this this).trans (by norm_num)
  have hread : ∀ n c, n < m * m → c < channels → channels * n + c < values.length := by
    intro n c hn hc
    rw [hv]
    have : channels * n ≤ 3 * n := Nat.mul_le_mul_right _ hch
    omega
  have hval : ∀ n c, n < m * m → c < channels → values[channels * n + c]? =
      some ((fun c n => values.getD (channels * n + c) 0) c n) := by
    intro n c hn hc
    have := hread n c hn hc
    simp [List.getD_eq_getElem?_getD, List.getElem?_eq_getElem this]
  obtain ⟨d, e, hd'⟩ := fold_compare (channels := channels) (values := values)
    (val := fun c n => values.getD (channels * n + c) 0) (comparisons channels (m * m)) desc bits hd
    (by rw [length_comparisons hm]; exact hl)
    (fun c hc => by
      obtain ⟨h1, h2, h3⟩ := mem_comparisons hc
      exact ⟨hval _ _ h2 h1, hval _ _ h3 h1⟩)
  refine ⟨d, _, ?_, hd', by rw [List.length_map, length_comparisons hm], ?_⟩
  · rw [List.length_append, List.length_map]; exact e
  · intro val hv'
    rw [← comparisons_eq]
    refine List.map_congr_left ?_
    intro c hc
    obtain ⟨h1, h2, h3⟩ := mem_comparisons hc
    have e1 := (hval _ _ h2 h1).symm.trans (hv' _ _ h2 h1)
    have e2 := (hval _ _ h3 h1).symm.trans (hv' _ _ h3 h1)
    simp only [Option.some.injEq] at e1 e2
    rw [e1, e2]

/-! ## The whole descriptor -/

/-- All samples are in the image. -/
def AllInside (p w h : Nat) (fr : Frame) : Prop := ∀ m ∈ [2, 3, 4], ∀ c ∈ cellList p (cellWidth p m),
  BoxInside w h fr (cellWidth p m) c.1 c.2

theorem allInside_iff {p w h : Nat} {fr : Frame} (hp : 4 ≤ p) : AllInside p w h fr ↔ PatternInside p w h fr := by
  constructor
  · intro ha m hm k l h1 h2 h3 h4
    have hc := cell_count hp hm
    obtain ⟨-, hw, -⟩ := cell_count_le (by omega : 1 ≤ p) hm
    have hbox : ∀ k : ℤ, -(p : ℤ) ≤ k → k < -(p : ℤ) + m * cellWidth p m →
        ∃ i ∈ starts p (cellWidth p m), i ≤ k ∧ k < i + cellWidth p m := by
      intro k h1 h2
      refine ⟨-(p : ℤ) + ((k + p) / cellWidth p m).toNat * cellWidth p m, mem_starts.2
        ⟨((k + p) / cellWidth p m).toNat, ?_, rfl⟩, ?_⟩
      · rw [hc]
        have : (k + p) / cellWidth p m < m := Int.ediv_lt_of_lt_mul (by exact_mod_cast hw) (by linarith)
        have h0 : 0 ≤ (k + p) / cellWidth p m := Int.ediv_nonneg (by linarith) (by positivity)
        omega
      · have h0 : 0 ≤ (k + p) / cellWidth p m := Int.ediv_nonneg (by linarith) (by positivity)
        rw [Int.toNat_of_nonneg h0]
        have e1 := Int.emod_add_mul_ediv (k + p) (cellWidth p m)
        have e2 := Int.emod_nonneg (k + p) (show (cellWidth p m : ℤ) ≠ 0 by exact_mod_cast hw.ne')
        have e3 := Int.emod_lt_of_pos (k + p) (show (0 : ℤ) < cellWidth p m by exact_mod_cast hw)
        rw [mul_comm] at e1
        constructor <;> linarith
    obtain ⟨i, hi, hi1, hi2⟩ := hbox k h1 h2
    obtain ⟨j, hj, hj1, hj2⟩ := hbox l h3 h4
    exact ha m hm (i, j) (List.mem_flatMap.2 ⟨i, hi, List.mem_map.2 ⟨j, hj, rfl⟩⟩) k l hi1 hi2 hj1 hj2
  · intro hq m hm c hc k l h1 h2 h3 h4
    obtain ⟨i, hi, hc⟩ := List.mem_flatMap.1 hc
    obtain ⟨j, hj, rfl⟩ := List.mem_map.1 hc
    have hcnt := cell_count hp hm
    have hin : ∀ i ∈ starts p (cellWidth p m), -(p : ℤ) ≤ i ∧ i + cellWidth p m ≤ -(p : ℤ) + m * cellWidth p m := by
      intro i hi
      obtain ⟨n, hn, rfl⟩ := mem_starts.1 hi
      rw [hcnt] at hn
      have h1 : (0 : ℤ) ≤ n * cellWidth p m := by positivity
      have h2 : ((n : ℤ) + 1) * cellWidth p m ≤ m * cellWidth p m :=
        mul_le_mul_of_nonneg_right (by omega) (by positivity)
      constructor <;> linarith
    obtain ⟨i1, i2⟩ := hin i hi
    obtain ⟨j1, j2⟩ := hin j hj
    simp only at h1 h2 h3 h4
    exact hq m hm k l (by linarith) (by linarith) (by linarith) (by linarith)

theorem allInside_of_small {p w h : Nat} {fr : Frame} (hp : p ≤ 10)
    (hall : ∀ k l : ℤ, -10 ≤ k → k ≤ 10 → -10 ≤ l → l ≤ 10 → InImage w h fr k l) : AllInside p w h fr := by
  intro m hm c hc k l h1 h2 h3 h4
  obtain ⟨i, hi, hc⟩ := List.mem_flatMap.1 hc
  obtain ⟨j, hj, rfl⟩ := List.mem_map.1 hc
  simp only at h1 h2 h3 h4
  have hend : (2 * p + cellWidth p m - 1) / cellWidth p m * cellWidth p m ≤ p + 11 := by
    simp only [List.mem_cons, List.not_mem_nil, or_false] at hm
    rcases hm with rfl | rfl | rfl <;> interval_cases p <;> decide
  have hin : ∀ i ∈ starts p (cellWidth p m), -10 ≤ i ∧ i + cellWidth p m ≤ 11 := by
    intro i hi
    obtain ⟨n, hn, rfl⟩ := mem_starts.1 hi
    have h1 : (n + 1) * cellWidth p m ≤ p + 11 := (Nat.mul_le_mul_right _ hn).trans hend
    have h2 : ((n : ℤ) + 1) * cellWidth p m ≤ p + 11 := by exact_mod_cast h1
    have h3 : (0 : ℤ) ≤ n * cellWidth p m := by positivity
    constructor
    · have : (p : ℤ) ≤ 10 := by exact_mod_cast hp
      linarith
    · linarith
  obtain ⟨i1, i2⟩ := hin i hi
  obtain ⟨j1, j2⟩ := hin j hj
  exact hall k l (by omega) (by omega) (by omega) (by omega)

theorem frame_eq {k : KeyPoint} (hk : 0 ≤ k.size) : frameOf k = patternFrame k := by
  unfold frameOf patternFrame
  simp only
  congr 2
  rw [roundAway_nonneg (by positivity)]
  congr 2
  field_simp

open Classical in
/-- What the descriptor is. -/
theorem mldb_eq {channels p : Nat} {levels : List DetLevel} {k : KeyPoint} {lv : DetLevel} {w h : Nat}
    {ft fx fy : Nat → Nat → ℝ} (hl : levels[k.classId]? = some lv) (ht : lv.lt.Shows w h ft) (hx : lv.lx.Shows w h fx)
    (hy : lv.ly.Shows w h fy) (hch : channels ≤ 3) (hp : 1 ≤ p) :
    ∃ out bits, mldbDescriptor p channels levels k =
        (if AllInside p w h (frameOf k) then .ok out else .error .outOfBounds) ∧ Holds out bits ∧
      bits.length = 162 * channels ∧
      (4 ≤ p → AllInside p w h (frameOf k) → bits = descriptorBits p channels ft fx fy (frameOf k)) := by
  set fr := frameOf k with hfr
  have m2 : 2 ∈ [2, 3, 4] := by decide
  have m3 : 3 ∈ [2, 3, 4] := by decide
  have m4 : 4 ∈ [2, 3, 4] := by decide
  obtain ⟨v2, e2, l2, c2⟩ := fillValues_eq (fr := fr) ht hx hy hch hp m2
    (values := List.replicate 48 0) (by simp)
  obtain ⟨v3, e3, l3, c3⟩ := fillValues_eq (fr := fr) ht hx hy hch hp m3 l2
  obtain ⟨v4, e4, l4, c4⟩ := fillValues_eq (fr := fr) ht hx hy hch hp m4 l3
  obtain ⟨d2, b2, f2, g2, n2, s2⟩ := binaryComparisons_eq hch m2 l2 holds_zero (by simp; omega)
  obtain ⟨d3, b3, f3, g3, n3, s3⟩ := binaryComparisons_eq hch m3 l3 g2 (by simp [n2]; omega)
  obtain ⟨d4, b4, f4, g4, n4, s4⟩ := binaryComparisons_eq hch m4 l4 g3 (by simp [n2, n3]; omega)
  refine ⟨d4, [] ++ b2 ++ b3 ++ b4, ?_, g4, by simp [n2, n3, n4]; omega, ?_⟩
  · unfold mldbDescriptor
    rw [if_neg (by omega), hl]
    have f2' : binaryComparisons channels ((0 + 2) * (0 + 2)) v2 (List.replicate 64 0, 0) =
      .ok (d2, ([] ++ b2).length) := f2
    have f3' : binaryComparisons channels ((0 + 1 + 2) * (0 + 1 + 2)) v3 (d2, ([] ++ b2).length) =
      .ok (d3, ([] ++ b2 ++ b3).length) := f3
    have f4' : binaryComparisons channels ((0 + 1 + 1 + 2) * (0 + 1 + 1 + 2)) v4 (d3, ([] ++ b2 ++ b3).length) =
      .ok (d4, ([] ++ b2 ++ b3 ++ b4).length) := f4
    simp only [← hfr, orPanic, sizeMult, List.zipIdx_cons, List.zipIdx_nil, List.foldlM_cons, List.foldlM_nil]
    rw [step_eq p (m := 2) (by simp), step_eq p (m := 3) (by simp), step_eq p (m := 4) (by simp)]
    by_cases h2 : ∀ c ∈ cellList p (cellWidth p 2), BoxInside w h fr (cellWidth p 2) c.1 c.2
    · rw [if_pos h2] at e2
      by_cases h3 : ∀ c ∈ cellList p (cellWidth p 3), BoxInside w h fr (cellWidth p 3) c.1 c.2
      · rw [if_pos h3] at e3
        by_cases h4 : ∀ c ∈ cellList p (cellWidth p 4), BoxInside w h fr (cellWidth p 4) c.1 c.2
        · rw [if_pos h4] at e4
          have : AllInside p w h fr := by
            intro m hm
            simp only [List.mem_cons, List.not_mem_nil, or_false] at hm
            rcases hm with rfl | rfl | rfl
            · exact h2
            · exact h3
            · exact h4
          rw [if_pos this]
          simp only [bind, Except.bind, pure, Except.pure, e2, e3, e4, f2', f3', f4']
        · rw [if_neg h4] at e4
          rw [if_neg (fun ha : AllInside p w h fr => h4 (ha 4 m4))]
          simp only [bind, Except.bind, pure, Except.pure, e2, e3, e4, f2', f3']
      · rw [if_neg h3] at e3
        rw [if_neg (fun ha : AllInside p w h fr => h3 (ha 3 m3))]
        simp only [bind, Except.bind, pure, Except.pure, e2, e3, f2']
    · rw [if_neg h2] at e2
      rw [if_neg (fun ha : AllInside p w h fr => h2 (ha 2 m2))]
      simp only [bind, Except.bind, e2]
  · intro hp4 hall
    unfold descriptorBits
    simp only [List.flatMap_cons, List.flatMap_nil, List.nil_append, List.append_nil]
    rw [← s2 _ (fun n c hn hc => c2 hp4 (hall 2 m2) n c hn hc), ← s3 _ (fun n c hn hc => c3 hp4 (hall 3 m3) n c hn hc),
      ← s4 _ (fun n c hn hc => c4 hp4 (hall 4 m4) n c hn hc), List.append_assoc]

end Verif.Akaze
