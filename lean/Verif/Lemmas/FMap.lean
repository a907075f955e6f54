import Verif.Model.FMap

/-! Map laws for `FMap` and `SlotMap` (helper lemmas). -/

namespace Verif
namespace FMap
variable {α : Type}

theorem lookup_filter (l : List (Nat × α)) (k j : Nat) :
    (l.filter (fun p => p.1 != k)).lookup j = if j = k then none else l.lookup j := by
  induction l with
  | nil => simp
  | cons p l ih =>
    obtain ⟨a, b⟩ := p
    rw [List.filter_cons]
    by_cases hak : a = k
    · subst hak
      simp only [bne_self_eq_false, Bool.false_eq_true, if_false, ih, List.lookup_cons]
      by_cases hja : j = a
      · simp [hja]
      · have : (j == a) = false := by simpa using hja
        simp [hja, this]
    · have : (a != k) = true := by simpa using hak
      simp only [this, if_true, List.lookup_cons]
      by_cases hja : j = a
      · subst hja; simp [hak]
      · have : (j == a) = false := by simpa using hja
        simp [this, ih]

theorem lookup_append (l₁ l₂ : List (Nat × α)) (j : Nat) :
    (l₁ ++ l₂).lookup j = (l₁.lookup j).or (l₂.lookup j) := by
  induction l₁ with
  | nil => simp
  | cons p l ih =>
    obtain ⟨a, b⟩ := p
    simp only [List.cons_append, List.lookup_cons]
    cases h : (j == a) <;> simp [ih]

theorem lookup_modify (l : List (Nat × α)) (k j : Nat) (f : α → α) :
    (l.map (fun p => if p.1 = k then (p.1, f p.2) else p)).lookup j =
      if j = k then (l.lookup j).map f else l.lookup j := by
  induction l with
  | nil => simp
  | cons p l ih =>
    obtain ⟨a, b⟩ := p
    simp only [List.map_cons]
    by_cases hak : a = k
    · subst hak
      simp only [if_true, List.lookup_cons, ih]
      by_cases hja : j = a
      · simp [hja]
      · have : (j == a) = false := by simpa using hja
        simp [this, hja]
    · simp only [hak, if_false, List.lookup_cons, ih]
      by_cases hja : j = a
      · subst hja; simp [hak]
      · have : (j == a) = false := by simpa using hja
        simp [this]

@[simp] theorem get_empty (j : Nat) : (empty : FMap α).get j = none := rfl

theorem get_erase (m : FMap α) (k j : Nat) :
    (m.erase k).get j = if j = k then none else m.get j := lookup_filter _ _ _

theorem get_modify (m : FMap α) (k j : Nat) (f : α → α) :
    (m.modify k f).get j = if j = k then (m.get j).map f else m.get j := lookup_modify _ _ _ _

theorem get_push (m : FMap α) (k j : Nat) (v : α) :
    (m.push k v).get j = (m.get j).or (if j = k then some v else none) := by
  unfold get push
  rw [lookup_append]
  simp only [List.lookup_cons, List.lookup_nil]
  by_cases h : j = k
  · simp [h]
  · have : (j == k) = false := by simpa using h
    simp [this, h]

theorem get_put (m : FMap α) (k j : Nat) (v : α) :
    (m.put k v).get j = if j = k then some v else m.get j := by
  unfold put
  split
  · rename_i h
    rw [get_modify]
    by_cases hjk : j = k
    · subst hjk
      obtain ⟨w, hw⟩ := Option.isSome_iff_exists.mp h
      simp [hw]
    · simp [hjk]
  · rename_i h
    rw [get_push]
    by_cases hjk : j = k
    · subst hjk
      have : m.get j = none := by simpa using h
      simp [this]
    · simp [hjk]

theorem get_single (k j : Nat) (v : α) :
    (single k v).get j = if j = k then some v else none := by
  unfold get single
  simp only [List.lookup_cons, List.lookup_nil]
  by_cases h : j = k
  · simp [h]
  · have : (j == k) = false := by simpa using h
    simp [this, h]

theorem lookup_eq_none_iff (l : List (Nat × α)) (k : Nat) :
    l.lookup k = none ↔ k ∉ l.map Prod.fst := by
  induction l with
  | nil => simp
  | cons p l ih =>
    obtain ⟨a, b⟩ := p
    simp only [List.lookup_cons, List.map_cons, List.mem_cons, not_or]
    by_cases h : k = a
    · simp [h]
    · have : (k == a) = false := by simpa using h
      simp [this, h, ih]

theorem get_eq_none_iff (m : FMap α) (k : Nat) : m.get k = none ↔ k ∉ m.keys :=
  lookup_eq_none_iff _ _

theorem mem_keys_iff (m : FMap α) (k : Nat) : k ∈ m.keys ↔ ∃ v, m.get k = some v := by
  have := get_eq_none_iff m k
  cases h : m.get k with
  | none => simp [this.mp h]
  | some v =>
    simp only [Option.some.injEq, exists_eq', iff_true]
    apply Classical.byContradiction
    intro hk
    rw [this.mpr hk] at h
    cases h

theorem lookup_mem {l : List (Nat × α)} {k : Nat} {v : α} (h : l.lookup k = some v) :
    (k, v) ∈ l := by
  induction l with
  | nil => simp at h
  | cons p l ih =>
    obtain ⟨a, b⟩ := p
    simp only [List.lookup_cons] at h
    by_cases hk : k = a
    · subst hk; simp at h; simp [h]
    · have : (k == a) = false := by simpa using hk
      simp only [this] at h
      exact List.mem_cons_of_mem _ (ih h)

theorem mem_of_get {m : FMap α} {k : Nat} {v : α} (h : m.get k = some v) :
    (k, v) ∈ m.entries := lookup_mem h

theorem lookup_of_mem {l : List (Nat × α)} {k : Nat} {v : α}
    (hn : (l.map Prod.fst).Nodup) (h : (k, v) ∈ l) : l.lookup k = some v := by
  induction l with
  | nil => simp at h
  | cons p l ih =>
    obtain ⟨a, b⟩ := p
    simp only [List.map_cons, List.nodup_cons] at hn
    simp only [List.lookup_cons]
    rcases List.mem_cons.mp h with h | h'
    · cases h; simp
    · have : k ≠ a := by
        rintro rfl
        exact hn.1 (List.mem_map.mpr ⟨(k, v), h', rfl⟩)
      have : (k == a) = false := by simpa using this
      simp [this, ih hn.2 h']

theorem get_of_mem {m : FMap α} (hw : m.WF) {k : Nat} {v : α} (h : (k, v) ∈ m.entries) :
    m.get k = some v := lookup_of_mem hw h

theorem mem_iff_get {m : FMap α} (hw : m.WF) {k : Nat} {v : α} :
    (k, v) ∈ m.entries ↔ m.get k = some v := ⟨get_of_mem hw, mem_of_get⟩

theorem wf_empty : (empty : FMap α).WF := by simp [WF, keys, empty]

theorem wf_single (k : Nat) (v : α) : (single k v).WF := by simp [WF, keys, single]

theorem wf_erase {m : FMap α} (h : m.WF) (k : Nat) : (m.erase k).WF :=
  (List.Sublist.map _ List.filter_sublist).nodup h

theorem keys_modify (m : FMap α) (k : Nat) (f : α → α) : (m.modify k f).keys = m.keys := by
  unfold keys modify
  rw [List.map_map]
  apply List.map_congr_left
  intro p _
  simp only [Function.comp_apply]
  split <;> rfl

theorem wf_modify {m : FMap α} (h : m.WF) (k : Nat) (f : α → α) : (m.modify k f).WF := by
  unfold WF; rw [keys_modify]; exact h

theorem wf_push {m : FMap α} (h : m.WF) {k : Nat} (hk : m.get k = none) (v : α) :
    (m.push k v).WF := by
  have hk' := (get_eq_none_iff m k).mp hk
  unfold WF keys push at *
  simp only [List.map_append, List.map_cons, List.map_nil]
  rw [List.nodup_append]
  refine ⟨h, by simp, ?_⟩
  intro a ha b hb
  simp only [List.mem_singleton] at hb
  subst hb
  rintro rfl
  exact hk' ha

theorem wf_put {m : FMap α} (h : m.WF) (k : Nat) (v : α) : (m.put k v).WF := by
  unfold put
  split
  · exact wf_modify h _ _
  · rename_i hk
    exact wf_push h (by simpa using hk) _

theorem size_eq_keys (m : FMap α) : m.size = m.keys.length := by simp [size, keys]

/-- Two different keys present means at least two entries. -/
theorem two_le_size {m : FMap α} {j k : Nat} {a b : α} (hjk : j ≠ k)
    (hj : m.get j = some a) (hk : m.get k = some b) : 2 ≤ m.size := by
  have hj := mem_of_get hj
  have hk := mem_of_get hk
  unfold size
  match h : m.entries with
  | [] => rw [h] at hj; simp at hj
  | [p] =>
    rw [h] at hj hk
    simp only [List.mem_singleton] at hj hk
    rw [← hj] at hk
    exact absurd (congrArg Prod.fst hk).symm hjk
  | _ :: _ :: _ => simp

theorem size_pos_of_get {m : FMap α} {k : Nat} {a : α} (h : m.get k = some a) : 0 < m.size := by
  have h := mem_of_get h
  unfold size
  exact List.length_pos_of_mem h

theorem exists_other {m : FMap α} (hw : m.WF) (h2 : 2 ≤ m.size) (k : Nat) :
    ∃ j v, j ≠ k ∧ m.get j = some v := by
  unfold size at h2
  match he : m.entries with
  | [] => rw [he] at h2; simp at h2
  | [p] => rw [he] at h2; simp at h2
  | (a, x) :: (b, y) :: t =>
    by_cases hak : a = k
    · refine ⟨b, y, ?_, ?_⟩
      · intro hbk
        unfold WF keys at hw
        rw [he] at hw
        simp [hak, hbk] at hw
      · apply get_of_mem hw; rw [he]; simp
    · exact ⟨a, x, hak, get_of_mem hw (by rw [he]; simp)⟩

theorem exists_get_of_size {m : FMap α} (hw : m.WF) (h : 0 < m.size) : ∃ k v, m.get k = some v := by
  unfold size at h
  match he : m.entries with
  | [] => rw [he] at h; simp at h
  | (a, x) :: t => exact ⟨a, x, get_of_mem hw (by rw [he]; simp)⟩

end FMap

namespace SlotMap
variable {α : Type}

@[simp] theorem get_empty (j : Nat) : (empty : SlotMap α).get j = none := rfl

theorem get_erase (s : SlotMap α) (k j : Nat) :
    (s.erase k).get j = if j = k then none else s.get j := FMap.get_erase _ _ _

theorem get_modify (s : SlotMap α) (k j : Nat) (f : α → α) :
    (s.modify k f).get j = if j = k then (s.get j).map f else s.get j := FMap.get_modify _ _ _ _

theorem get_next {s : SlotMap α} (h : s.WF) : s.get s.next = none := by
  cases hg : s.get s.next with
  | none => rfl
  | some v => exact absurd (h.fresh _ _ hg) (Nat.lt_irrefl _)

theorem get_insert {s : SlotMap α} (h : s.WF) (v : α) (j : Nat) :
    (s.insert v).get j = if j = s.next then some v else s.get j := by
  show (s.map.push s.next v).get j = _
  rw [FMap.get_push]
  by_cases hj : j = s.next
  · subst hj
    have : s.map.get s.next = none := get_next h
    simp [this]
  · simp [hj, get]

theorem wf_empty : (empty : SlotMap α).WF := ⟨FMap.wf_empty, by simp⟩

theorem wf_insert {s : SlotMap α} (h : s.WF) (v : α) : (s.insert v).WF := by
  refine ⟨FMap.wf_push h.nodup (get_next h) v, ?_⟩
  intro k w hk
  rw [get_insert h] at hk
  show k < s.next + 1
  split at hk
  · omega
  · have := h.fresh _ _ hk; omega

theorem wf_erase {s : SlotMap α} (h : s.WF) (k : Nat) : (s.erase k).WF := by
  refine ⟨FMap.wf_erase h.nodup k, ?_⟩
  intro j w hj
  rw [get_erase] at hj
  split at hj
  · cases hj
  · exact h.fresh _ _ hj

theorem wf_modify {s : SlotMap α} (h : s.WF) (k : Nat) (f : α → α) : (s.modify k f).WF := by
  refine ⟨FMap.wf_modify h.nodup k f, ?_⟩
  intro j w hj
  rw [get_modify] at hj
  show j < s.next
  split at hj
  · cases hg : s.get j with
    | none => rw [hg] at hj; simp at hj
    | some x => exact h.fresh _ _ hg
  · exact h.fresh _ _ hj

theorem mem_keys_iff (s : SlotMap α) (k : Nat) : k ∈ s.keys ↔ ∃ v, s.get k = some v :=
  FMap.mem_keys_iff _ _

@[simp] theorem next_insert (s : SlotMap α) (v : α) : (s.insert v).next = s.next + 1 := rfl
@[simp] theorem next_erase (s : SlotMap α) (k : Nat) : (s.erase k).next = s.next := rfl
@[simp] theorem next_modify (s : SlotMap α) (k : Nat) (f : α → α) :
    (s.modify k f).next = s.next := rfl

/-- Values kept by `retain`. -/
theorem mem_retain {s : SlotMap α} {p : α → Bool} {e : Nat × α} :
    e ∈ (s.retain p).map.entries ↔ e ∈ s.map.entries ∧ p e.2 = true := by
  simp [retain]

theorem wf_retain {s : SlotMap α} (h : s.WF) (p : α → Bool) : (s.retain p).WF := by
  have hn : (s.retain p).map.WF := (List.Sublist.map _ List.filter_sublist).nodup h.nodup
  refine ⟨hn, ?_⟩
  intro k v hk
  have := FMap.mem_of_get hk
  have := (mem_retain.mp this).1
  exact h.fresh k v (FMap.get_of_mem h.nodup this)

end SlotMap
end Verif
