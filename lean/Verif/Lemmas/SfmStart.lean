import Verif.Spec.SfmStart
import Verif.Lemmas.Matching
import Mathlib.Data.List.Perm.Subperm
import Mathlib.Data.List.Nodup

/-! Helper lemmas about the start of a reconstruction. -/

namespace Verif.Sfm

variable {P S : Type} [LinearOrder S]

theorem pick_spec {α : Type} {l : List α} (is : List Nat) (h : ∀ i, i ∈ is → i < l.length) :
    ∃ xs, pick l is = some xs ∧ xs.length = is.length ∧
      (∀ x, x ∈ xs ↔ ∃ i, i ∈ is ∧ l[i]? = some x) ∧
      (l.Nodup → is.Nodup → xs.Nodup) := by
  induction is with
  | nil => exact ⟨[], rfl, rfl, by simp, by simp⟩
  | cons i is ih =>
    obtain ⟨xs, e, a1, a2, a3⟩ := ih (fun j hj => h j (by simp [hj]))
    have hi := h i (by simp)
    refine ⟨l[i] :: xs, ?_, by simp [a1], ?_, ?_⟩
    · simp only [pick, List.getElem?_eq_getElem hi, e]
    · intro x
      simp only [List.mem_cons, a2]
      constructor
      · rintro (rfl | ⟨j, hj, e⟩)
        · exact ⟨i, Or.inl rfl, List.getElem?_eq_getElem hi⟩
        · exact ⟨j, Or.inr hj, e⟩
      · rintro ⟨j, rfl | hj, e⟩
        · left
          rw [List.getElem?_eq_getElem hi] at e
          exact (Option.some.inj e).symm
        · exact Or.inr ⟨j, hj, e⟩
    · intro hl hn
      obtain ⟨hni, hn⟩ := List.nodup_cons.mp hn
      refine List.nodup_cons.mpr ⟨?_, a3 hl hn⟩
      intro hm
      obtain ⟨j, hj, e⟩ := (a2 _).mp hm
      have hjl := h j (by simp [hj])
      rw [List.getElem?_eq_getElem hjl] at e
      have : j = i := (List.Nodup.getElem_inj_iff hl).mp (Option.some.inj e)
      exact hni (this ▸ hj)

theorem matchOne_clear {k : Nat} {ans : List (Nat × Nat)} {j : Nat} :
    matchOne k ans = some (some j) ↔ ClearAnswer k ans j := by
  unfold matchOne ClearAnswer
  rcases ans with _ | ⟨⟨i, x⟩, _ | ⟨⟨i', y⟩, rest⟩⟩
  · simp
  · simp
  · simp only [Option.some.injEq, Option.ite_none_right_eq_some, List.cons.injEq, Prod.mk.injEq]
    constructor
    · rintro ⟨h, rfl⟩
      exact ⟨x, (i', y), rest, ⟨⟨rfl, rfl⟩, rfl, rfl⟩, h⟩
    · rintro ⟨x', e, r, ⟨⟨rfl, rfl⟩, rfl, rfl⟩, h⟩
      exact ⟨h, rfl⟩

/-- Matches between two frames with `na` and `nb` features: in range, each feature at most once. -/
structure PairsOk (na nb : Nat) (ps : List (Nat × Nat)) : Prop where
  nodup : ps.Nodup
  range : ∀ p, p ∈ ps → p.1 < na ∧ p.2 < nb
  left : ∀ c f g, (c, f) ∈ ps → (c, g) ∈ ps → f = g
  right : ∀ c e f, (c, f) ∈ ps → (e, f) ∈ ps → c = e

omit [LinearOrder S] in
theorem mutual_unique_right {o : StartOracle P S} {s : StartSettings} {d : Data P} {a b i j j' : Nat}
    (h : MutualMatch o s d a b i j) (h' : MutualMatch o s d a b i j') : j = j' := by
  obtain ⟨_, _, _, _, _, _, _, _, ⟨x, e, r, h1, _⟩, _⟩ := h
  obtain ⟨_, _, _, _, _, _, _, _, ⟨x', e', r', h1', _⟩, _⟩ := h'
  rw [h1] at h1'
  cases h1'
  rfl

omit [LinearOrder S] in
theorem mutual_unique_left {o : StartOracle P S} {s : StartSettings} {d : Data P} {a b i i' j : Nat}
    (h : MutualMatch o s d a b i j) (h' : MutualMatch o s d a b i' j) : i = i' := by
  obtain ⟨_, _, _, _, _, _, _, _, _, x, e, r, h1, _⟩ := h
  obtain ⟨_, _, _, _, _, _, _, _, _, x', e', r', h1', _⟩ := h'
  rw [h1] at h1'
  cases h1'
  rfl

omit [LinearOrder S] in
theorem TwoViewOf.ok {o : StartOracle P S} {s : StartSettings} {d : Data P} {a b : Nat} {A B : Frame}
    (hA : d.frames.get a = some A) (hB : d.frames.get b = some B) {pose : P}
    {ps : List (Nat × Nat)} (h : TwoViewOf o s d a b pose ps) : PairsOk A.nfeat B.nfeat ps := by
  obtain ⟨all, is, h1, h2, h3, h4, h5, h6⟩ := h
  have hm : ∀ i j, (i, j) ∈ ps → MutualMatch o s d a b i j := by
    intro i j hp
    obtain ⟨k, _, hk⟩ := (h5 _).mp hp
    exact (h2 i j).mp (List.mem_of_getElem? hk)
  refine ⟨h4, ?_, ?_, ?_⟩
  · rintro ⟨i, j⟩ hp
    obtain ⟨A', B', e1, e2, _, _, hi, hj, _⟩ := hm i j hp
    rw [hA] at e1
    rw [hB] at e2
    cases e1
    cases e2
    exact ⟨hi, hj⟩
  · intro c f g hf hg
    exact mutual_unique_right (hm _ _ hf) (hm _ _ hg)
  · intro c e f hc he
    exact mutual_unique_left (hm _ _ hc) (hm _ _ he)

omit [LinearOrder S] in
theorem symmetric_mutual {o : StartOracle P S} {s : StartSettings} {d : Data P}
    (hs : o.Searches d) {a b : Nat} {A B : Frame} (hA : d.frames.get a = some A)
    (hB : d.frames.get b = some B) :
    ∃ all, symmetricMatching A.nfeat B.nfeat s.betterBy (o.knn a b) (o.knn b a) = some all ∧
      all.Nodup ∧ ∀ i j, (i, j) ∈ all ↔ MutualMatch o s d a b i j := by
  by_cases h2 : 2 ≤ A.nfeat ∧ 2 ≤ B.nfeat
  · obtain ⟨all, e, h1, h3⟩ := symmetric_spec (na := A.nfeat) (nb := B.nfeat) (k := s.betterBy)
      (ab := o.knn a b) (ba := o.knn b a)
      (fun i hi h2 h2' => (hs a b A B i hA hB h2 h2' hi).1)
      (fun i j x hi hm => (hs a b A B i hA hB h2.1 h2.2 hi).2 _ hm)
      (fun j hj h2 h2' => (hs b a B A j hB hA h2 h2' hj).1)
    refine ⟨all, e, ?_, ?_⟩
    · refine h1.imp ?_
      rintro p q hlt rfl
      omega
    · intro i j
      rw [h3, matchOne_clear, matchOne_clear]
      constructor
      · rintro ⟨a1, a2, a3, a4, a5, a6⟩
        exact ⟨A, B, hA, hB, a1, a2, a3, a4, a5, a6⟩
      · rintro ⟨A', B', e1, e2, a1, a2, a3, a4, a5, a6⟩
        rw [hA] at e1
        rw [hB] at e2
        cases e1
        cases e2
        exact ⟨a1, a2, a3, a4, a5, a6⟩
  · refine ⟨[], ?_, by simp, ?_⟩
    · simp only [symmetricMatching, matching]
      rw [if_pos (by omega), if_pos (by omega)]
      rfl
    · intro i j
      simp only [List.not_mem_nil, false_iff]
      rintro ⟨A', B', e1, e2, a1, a2, _⟩
      rw [hA] at e1
      rw [hB] at e2
      cases e1
      cases e2
      exact h2 ⟨a1, a2⟩

theorem initTwoView_spec {o : StartOracle P S} (ho : o.Fair) {s : StartSettings} {d : Data P}
    (hs : o.Searches d) {a b : Nat} {A B : Frame} (hA : d.frames.get a = some A)
    (hB : d.frames.get b = some B) :
    ∃ r, initTwoView o s a b A.nfeat B.nfeat = some r ∧
      ∀ pose ps, r = some (pose, ps) → TwoViewOf o s d a b pose ps := by
  obtain ⟨all, e, h1, h2⟩ := symmetric_mutual (s := s) hs hA hB
  unfold initTwoView
  simp only [e]
  cases hc : o.consensus a b (o.shuffleTwo all) with
  | none => exact ⟨none, rfl, by intro _ _ h; cases h⟩
  | some r =>
    obtain ⟨pose, is⟩ := r
    obtain ⟨hnd, hr⟩ := ho.inliers a b _ pose is hc
    obtain ⟨xs, ex, a1, a2, a3⟩ := pick_spec is hr
    simp only [ex]
    split
    · exact ⟨none, rfl, by intro _ _ h; cases h⟩
    · refine ⟨_, rfl, ?_⟩
      intro pose' ps h
      cases h
      have hp := ho.shuffleTwo all
      refine ⟨o.shuffleTwo all, is, hp.nodup_iff.mpr h1, ?_, hc, a3 (hp.nodup_iff.mpr h1) hnd, a2,
        by omega⟩
      intro i j
      rw [hp.mem_iff, h2]

theorem twoViews_spec {o : StartOracle P S} (ho : o.Fair) {s : StartSettings} {d : Data P}
    (hs : o.Searches d) {c : Nat} {C : Frame} (hC : d.frames.get c = some C) (options : List Nat) :
    (∀ x, x ∈ options → ∃ X, d.frames.get x = some X) →
    ∃ ts, twoViews o s d c C.nfeat options = some ts ∧ (ts.map TwoView.frame).Sublist options ∧
      ∀ t, t ∈ ts → TwoViewOf o s d c t.frame t.pose t.pairs := by
  induction options with
  | nil => intro _; exact ⟨[], rfl, by simp, by simp⟩
  | cons x xs ih =>
    intro hl
    obtain ⟨X, hX⟩ := hl x (by simp)
    obtain ⟨ts, e, h1, h2⟩ := ih (fun y hy => hl y (by simp [hy]))
    obtain ⟨r, er, hr⟩ := initTwoView_spec (s := s) ho hs hC hX
    unfold twoViews
    rw [hX]
    simp only [er, e]
    rcases r with _ | ⟨pose, ps⟩
    · exact ⟨ts, rfl, h1.trans (List.sublist_cons_self _ _), h2⟩
    · refine ⟨_, rfl, ?_, ?_⟩
      · simpa using h1
      · intro t ht
        rcases List.mem_cons.mp ht with rfl | ht
        · exact hr pose ps rfl
        · exact h2 t ht

theorem mem_combos {α : Type} (l : List α) (a b : α) :
    (a, b) ∈ combos l ↔ [a, b].Sublist l := by
  induction l with
  | nil => simp [combos]
  | cons x l ih =>
    simp only [combos, List.mem_append, List.mem_map, Prod.mk.injEq, ih]
    constructor
    · rintro (⟨y, hy, rfl, rfl⟩ | h)
      · exact List.Sublist.cons_cons _ (List.singleton_sublist.mpr hy)
      · exact h.trans (List.sublist_cons_self _ _)
    · intro h
      rcases h with _ | h | h
      · exact Or.inr ‹_›
      · exact Or.inl ⟨b, List.singleton_sublist.mp ‹_›, rfl, rfl⟩

theorem nodup_combos {α : Type} {l : List α} (h : l.Nodup) : (combos l).Nodup := by
  induction l with
  | nil => simp [combos]
  | cons x l ih =>
    obtain ⟨hx, hl⟩ := List.nodup_cons.mp h
    simp only [combos]
    rw [List.nodup_append]
    refine ⟨hl.map (fun a b h => by simpa using h), ih hl, ?_⟩
    rintro ⟨a, b⟩ h1 ⟨a', b'⟩ h2 e
    cases e
    simp only [List.mem_map, Prod.mk.injEq] at h1
    obtain ⟨y, _, rfl, rfl⟩ := h1
    have := (mem_combos l x y).mp h2
    exact hx (this.subset (by simp))

theorem lastMatch_iff {ps : List (Nat × Nat)}
    (hl : ∀ c f g, (c, f) ∈ ps → (c, g) ∈ ps → f = g) (c s : Nat) :
    lastMatch ps c = some s ↔ (c, s) ∈ ps := by
  unfold lastMatch
  constructor
  · intro h
    obtain ⟨⟨c', s'⟩, h1, h2⟩ := Option.map_eq_some_iff.mp h
    have := List.mem_of_getLast? h1
    simp only [List.mem_filter, beq_iff_eq] at this
    simp only at h2
    rw [← h2, ← this.2]
    exact this.1
  · intro h
    cases hg : (ps.filter (fun p => p.1 == c)).getLast? with
    | none =>
      rw [List.getLast?_eq_none_iff] at hg
      have : (c, s) ∈ ps.filter (fun p => p.1 == c) := by simp [h]
      rw [hg] at this
      simp at this
    | some p =>
      have := List.mem_of_getLast? hg
      simp only [List.mem_filter, beq_iff_eq] at this
      obtain ⟨c', s'⟩ := p
      obtain ⟨h1, h2⟩ := this
      simp only at h2
      subst h2
      simp [hl _ _ _ h1 h]

theorem lastMatch_none {ps : List (Nat × Nat)}
    (hl : ∀ c f g, (c, f) ∈ ps → (c, g) ∈ ps → f = g) (c : Nat) :
    (lastMatch ps c).isNone = true ↔ ∀ s, (c, s) ∉ ps := by
  rw [Option.isNone_iff_eq_none, Option.eq_none_iff_forall_ne_some]
  refine forall_congr' fun s => ?_
  rw [ne_eq, lastMatch_iff hl]

theorem mem_common {p q : List (Nat × Nat)}
    (hl : ∀ c f g, (c, f) ∈ q → (c, g) ∈ q → f = g) (t : Tri) :
    t ∈ commonMatches p q ↔ CommonTo p q t := by
  obtain ⟨c, f, s⟩ := t
  unfold commonMatches CommonTo
  simp only [List.mem_filterMap, Option.map_eq_some_iff, Prod.mk.injEq, Prod.exists, lastMatch_iff hl]
  constructor
  · rintro ⟨a, b, h1, s', h2, rfl, rfl, rfl⟩
    exact ⟨h1, h2⟩
  · rintro ⟨h1, h2⟩
    exact ⟨c, f, h1, s, h2, rfl, rfl, rfl⟩

theorem nodup_common {p q : List (Nat × Nat)} (hp : p.Nodup) : (commonMatches p q).Nodup := by
  unfold commonMatches
  refine hp.filterMap ?_
  rintro ⟨a, b⟩ ⟨a', b'⟩ t h h'
  simp only [Option.mem_def, Option.map_eq_some_iff] at h h'
  obtain ⟨s, _, rfl⟩ := h
  obtain ⟨s', _, e⟩ := h'
  cases e
  rfl

theorem sorted_split {a b : List S} {m : S} (hs : (a ++ m :: b).Pairwise (· ≤ ·)) :
    ((a ++ m :: b).filter (· < m)).length ≤ a.length ∧
    ((a ++ m :: b).filter (m < ·)).length ≤ b.length := by
  obtain ⟨_, h2, h3⟩ := List.pairwise_append.mp hs
  have h4 := (List.pairwise_cons.mp h2).1
  constructor
  · rw [List.filter_append, List.length_append]
    have : (m :: b).filter (· < m) = [] := by
      rw [List.filter_eq_nil_iff]
      intro x hx
      rcases List.mem_cons.mp hx with rfl | hx
      · simp
      · have := h4 x hx
        simp only [decide_eq_true_eq]
        exact not_lt_of_ge this
    rw [this]
    exact List.length_filter_le _ _
  · rw [List.filter_append, List.length_append]
    have : a.filter (m < ·) = [] := by
      rw [List.filter_eq_nil_iff]
      intro x hx
      have := h3 x hx m (by simp)
      simp only [decide_eq_true_eq]
      exact not_lt_of_ge this
    rw [this, List.filter_cons]
    simp only [lt_irrefl, decide_false, Bool.false_eq_true, if_false, List.length_nil,
      Nat.zero_add]
    exact List.length_filter_le _ _

theorem median_spec {l l' : List S} (hp : l'.Perm l) (hs : l'.Pairwise (· ≤ ·)) (hl : 0 < l.length) :
    ∃ m, median l' = some m ∧ IsMedian m l := by
  have hlen := hp.length_eq
  have hlt : l'.length / 2 < l'.length := by omega
  refine ⟨l'[l'.length / 2], List.getElem?_eq_getElem hlt, ?_, ?_⟩
  · exact hp.mem_iff.mp (List.getElem_mem _)
  · rw [← (hp.filter _).length_eq, ← (hp.filter _).length_eq, ← hlen]
    have e : l' = l'.take (l'.length / 2) ++ l'[l'.length / 2] :: l'.drop (l'.length / 2 + 1) := by
      rw [← List.drop_eq_getElem_cons hlt, List.take_append_drop]
    generalize l'[l'.length / 2] = m at e ⊢
    obtain ⟨h1, h2⟩ := sorted_split (a := l'.take (l'.length / 2)) (m := m)
      (b := l'.drop (l'.length / 2 + 1)) (by rw [← e]; exact hs)
    rw [← e] at h1 h2
    rw [List.length_take] at h1
    rw [List.length_drop] at h2
    omega

/-! ## The loop over the pairs -/

omit [LinearOrder S] in
theorem robustMatches_mem {o : StartOracle P S} {s : StartSettings} {c f g : Nat} {lvl : Level}
    {p q : P} {common : List Tri} {t : Tri} (h : t ∈ robustMatches o s c f g lvl p q common) :
    t ∈ common ∧ o.robust c f g lvl p q t = true := by
  have := List.mem_of_mem_take h
  simpa using this

omit [LinearOrder S] in
theorem robustMatches_nodup {o : StartOracle P S} {s : StartSettings} {c f g : Nat} {lvl : Level}
    {p q : P} {common : List Tri} (h : common.Nodup) :
    (robustMatches o s c f g lvl p q common).Nodup :=
  List.Nodup.sublist (List.take_sublist _ _) (h.filter _)

theorem enough_iff {n : Nat} {l : List Tri} : enough n l = true ↔ 32 ≤ l.length ∧ n < l.length := by
  unfold enough
  simp only [Bool.not_eq_true', Bool.or_eq_false_iff, decide_eq_false_iff_not, Nat.not_lt,
    Nat.not_le]

omit [LinearOrder S] in
theorem filterLoop_spec {o : StartOracle P S} {s : StartSettings} {c f g m : Nat} {common : List Tri}
    (hnd : common.Nodup) (n : Nat) : ∀ {ps ps' : P × P} {lvl : Level} {opti opti' : List Tri},
    opti.Nodup → (∀ t, t ∈ opti → t ∈ common ∧ o.robust c f g lvl ps.1 ps.2 t = true) →
    filterLoop o s c f g m common n ps opti = some (ps', opti') → 32 ≤ opti'.length →
    m < opti'.length →
    OptimisedFrom o c f g m (· ∈ common) (n + 1) lvl ps (o.optimise c f g ps' opti') := by
  induction n with
  | zero =>
    intro ps ps' lvl opti opti' h1 h2 he h3 h4
    simp only [filterLoop, Option.some.injEq, Prod.mk.injEq] at he
    obtain ⟨rfl, rfl⟩ := he
    exact .run 0 lvl ps _ opti h3 h4 h1 h2 (.done _ _)
  | succ n ih =>
    intro ps ps' lvl opti opti' h1 h2 he h3 h4
    simp only [filterLoop] at he
    split at he
    · rename_i hen
      obtain ⟨e1, e2⟩ := enough_iff.mp hen
      exact .run (n + 1) lvl ps _ opti e1 e2 h1 h2
        (ih (lvl := .strict) (robustMatches_nodup hnd) (fun t ht => robustMatches_mem ht) he h3 h4)
    · cases he

omit [LinearOrder S] in
theorem OptimisedFrom.congr {o : StartOracle P S} {c f g m n : Nat} {p q : Tri → Prop} {lvl : Level}
    {ps ps' : P × P} (h : OptimisedFrom o c f g m p n lvl ps ps') (hpq : ∀ t, p t → q t) :
    OptimisedFrom o c f g m q n lvl ps ps' := by
  induction h with
  | done => exact .done _ _
  | run n lvl ps ps' ms h1 h2 h3 h4 _ ih =>
    exact .run n lvl ps ps' ms h1 h2 h3 (fun t ht => ⟨hpq t (h4 t ht).1, (h4 t ht).2⟩) ih

/-- One pair of options. -/
theorem tryPair_spec {o : StartOracle P S} (ho : o.Fair) {s : StartSettings} (hms : 0 < s.minScales)
    {c nc : Nat} {a b : TwoView P} {na nb : Nat} (ha : PairsOk nc na a.pairs)
    (hb : PairsOk nc nb b.pairs) :
    ∃ r, tryPair o s c a b = some r ∧ ∀ p q cm fm sm, r = .found p q cm fm sm →
      StartOk o s c ⟨a.frame, p, b.frame, q, cm, fm, sm⟩ a.pose b.pose a.pairs b.pairs := by
  unfold tryPair
  have hperm := ho.shuffleTri (commonMatches a.pairs b.pairs)
  have hmem : ∀ t, t ∈ o.shuffleTri (commonMatches a.pairs b.pairs) ↔ CommonTo a.pairs b.pairs t :=
    fun t => by rw [hperm.mem_iff, mem_common hb.left]
  have hnd : (o.shuffleTri (commonMatches a.pairs b.pairs)).Nodup :=
    hperm.nodup_iff.mpr (nodup_common ha.nodup)
  simp only
  generalize o.shuffleTri (commonMatches a.pairs b.pairs) = common at hmem hnd ⊢
  split
  · exact ⟨_, rfl, by intro _ _ _ _ _ h; cases h⟩
  rename_i hlen
  obtain ⟨m, em, hmed⟩ := median_spec (ho.sort (common.filterMap (fun t =>
      if o.robust c a.frame b.frame .loose a.pose b.pose t then
        o.ratio c a.frame b.frame a.pose b.pose t else none))) (ho.sorted _) (by omega)
  simp only [em]
  split
  · exact ⟨_, rfl, by intro _ _ _ _ _ h; cases h⟩
  rename_i hpairs
  cases hfl : filterLoop o s c a.frame b.frame
      ((robustMatches o s c a.frame b.frame Level.loose a.pose (o.rescale b.pose m) common).length / 2)
      common s.filterIterations (a.pose, o.rescale b.pose m)
      (robustMatches o s c a.frame b.frame Level.loose a.pose (o.rescale b.pose m) common) with
  | none => exact ⟨_, rfl, by intro _ _ _ _ _ h; cases h⟩
  | some r =>
    obtain ⟨ps, opti'⟩ := r
    simp only
    split
    · rename_i hen
      obtain ⟨e1, e2⟩ := enough_iff.mp hen
      refine ⟨_, rfl, ?_⟩
      intro p q cm fm sm hfound
      unfold finishPair at hfound
      simp only at hfound
      split at hfound
      · cases hfound
      split at hfound
      · cases hfound
      rename_i hr1 hr2
      cases hfound
      have hopt := filterLoop_spec hnd s.filterIterations (lvl := .loose)
        (robustMatches_nodup hnd) (fun t ht => robustMatches_mem ht) hfl e1 e2
      refine ⟨?_, hnd.filter _, ?_, ha.nodup.filter _, ?_, hb.nodup.filter _, ?_⟩
      · intro t
        rw [List.mem_filter, hmem]
      · intro c' f
        rw [List.mem_filter, Bool.and_eq_true, lastMatch_none hb.left]
      · intro c' g
        rw [List.mem_filter, Bool.and_eq_true, lastMatch_none ha.left]
      · refine ⟨m, common,
          robustMatches o s c a.frame b.frame .loose a.pose (o.rescale b.pose m) common, hnd, hmem,
          Nat.le_of_not_lt hlen, hmed, robustMatches_nodup hnd, ?_, ?_, ?_, ?_, ?_⟩
        · intro t ht
          have := robustMatches_mem ht
          exact ⟨(hmem t).mp this.1, this.2⟩
        · exact List.length_take
        · refine ⟨_, (nodup_combos (robustMatches_nodup hnd)).filter _, Nat.le_of_not_lt hpairs,
            ?_⟩
          intro x y hxy
          rw [List.mem_filter, mem_combos] at hxy
          exact hxy
        · exact hopt.congr fun t ht => (hmem t).mp ht
        · refine ⟨_, hnd.filter _, Nat.le_of_not_lt hr2, Nat.lt_of_not_le hr1, ?_⟩
          intro t ht
          rw [List.mem_filter, hmem] at ht
          exact ht
    · exact ⟨_, rfl, by intro _ _ _ _ _ h; cases h⟩

end Verif.Sfm
