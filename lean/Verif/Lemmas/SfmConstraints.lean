import Verif.Lemmas.SfmDedup

/-! Helper lemmas: generation of three-view constraints. -/

namespace Verif.Sfm
variable {P : Type}

namespace Data

theorem canonical_perm (a b c : Nat) :
    [(canonicalViewOrder a b c).1, (canonicalViewOrder a b c).2.1,
      (canonicalViewOrder a b c).2.2].Perm [a, b, c] ∧
    (canonicalViewOrder a b c).1 ≤ (canonicalViewOrder a b c).2.1 ∧
    (canonicalViewOrder a b c).2.1 ≤ (canonicalViewOrder a b c).2.2 := by
  unfold canonicalViewOrder
  have s1 : [b, a, c].Perm [a, b, c] := List.Perm.swap _ _ _
  have s2 : [a, c, b].Perm [a, b, c] := List.Perm.cons _ (List.Perm.swap _ _ _)
  have s3 : [b, c, a].Perm [a, b, c] := (List.Perm.cons _ (List.Perm.swap _ _ _)).trans s1
  have s4 : [c, a, b].Perm [a, b, c] := (List.Perm.swap _ _ _).trans s2
  have s5 : [c, b, a].Perm [a, b, c] := (List.Perm.swap _ _ _).trans s3
  by_cases h1 : a ≤ b
  · by_cases h2 : b ≤ c
    · simp only [h1, h2, if_true]
      exact ⟨List.Perm.refl _, trivial, trivial⟩
    · by_cases h3 : a ≤ c
      · simp only [h1, h2, h3, if_true, if_false]
        exact ⟨s2, trivial, by omega⟩
      · simp only [h1, h2, h3, if_true, if_false]
        exact ⟨s4, by omega, trivial⟩
  · by_cases h2 : a ≤ c
    · have h3 : b ≤ a := by omega
      simp only [h1, h2, h3, if_true, if_false]
      exact ⟨s1, trivial, trivial⟩
    · by_cases h3 : b ≤ c
      · simp only [h1, h2, h3, if_true, if_false]
        exact ⟨s3, trivial, by omega⟩
      · simp only [h1, h2, h3, if_false]
        exact ⟨s5, by omega, by omega⟩

theorem canonical_inj {v a b c d : Nat} (h : canonicalViewOrder v a b = canonicalViewOrder v c d) :
    [a, b].Perm [c, d] := by
  have h1 := (canonical_perm v a b).1
  have h2 := (canonical_perm v c d).1
  rw [h] at h1
  exact (h1.symm.trans h2).cons_inv

end Data

namespace Recon

theorem pairs_mem {l : List Nat} {a b : Nat} (h : (a, b) ∈ pairs l) : a ∈ l ∧ b ∈ l := by
  induction l with
  | nil => simp [pairs] at h
  | cons x xs ih =>
    simp only [pairs, List.mem_append, List.mem_map, Prod.mk.injEq] at h
    rcases h with ⟨y, hy, rfl, rfl⟩ | h
    · exact ⟨by simp, List.mem_cons_of_mem _ hy⟩
    · obtain ⟨h1, h2⟩ := ih h
      exact ⟨List.mem_cons_of_mem _ h1, List.mem_cons_of_mem _ h2⟩

theorem pairs_ne {l : List Nat} (hl : l.Nodup) {a b : Nat} (h : (a, b) ∈ pairs l) : a ≠ b := by
  induction l with
  | nil => simp [pairs] at h
  | cons x xs ih =>
    simp only [List.nodup_cons] at hl
    simp only [pairs, List.mem_append, List.mem_map, Prod.mk.injEq] at h
    rcases h with ⟨y, hy, rfl, rfl⟩ | h
    · rintro rfl; exact hl.1 hy
    · exact ih hl.2 h

theorem pairs_distinct {l : List Nat} (hl : l.Nodup) :
    (pairs l).Pairwise (fun p q => ¬ [p.1, p.2].Perm [q.1, q.2]) := by
  induction l with
  | nil => simp [pairs]
  | cons x xs ih =>
    simp only [List.nodup_cons] at hl
    unfold pairs
    rw [List.pairwise_append]
    refine ⟨?_, ih hl.2, ?_⟩
    · rw [List.pairwise_map]
      refine List.Pairwise.imp ?_ hl.2
      intro b c hbc hp
      have := hp.cons_inv
      have h := List.Perm.mem_iff (a := b) this
      simp at h
      exact hbc h
    · intro p hp q hq hperm
      obtain ⟨y, hy, rfl⟩ := List.mem_map.mp hp
      obtain ⟨c, d⟩ := q
      obtain ⟨hc, hd⟩ := pairs_mem hq
      have h := (List.Perm.mem_iff (a := x) hperm).mp (by simp)
      simp at h
      rcases h with rfl | rfl
      · exact hl.1 hc
      · exact hl.1 hd

theorem visit_sub (visited : List Nat) (ts : List Triple) :
    (uniqueTriples visited ts).Sublist ts := by
  induction ts generalizing visited with
  | nil => simp [uniqueTriples]
  | cons t ts ih =>
    unfold uniqueTriples
    split
    · exact List.Sublist.cons_cons _ (ih _)
    · exact List.Sublist.cons _ (ih _)

theorem orderTriples_mem {s : Settings} {ts : List Triple} {t : Triple}
    (h : t ∈ orderTriples s ts) : t ∈ ts := by
  unfold orderTriples at h
  rcases List.mem_append.mp h with h | h
  · exact (visit_sub [] ts).mem ((List.take_sublist _ _).mem h)
  · exact (List.mem_filter.mp h).1

theorem orderTriples_mem_iff {s : Settings} {ts : List Triple} (hts : (ts.map Prod.fst).Nodup)
    {t : Triple} : t ∈ orderTriples s ts ↔ t ∈ ts := by
  refine ⟨orderTriples_mem, fun h => ?_⟩
  unfold orderTriples
  by_cases hu : t ∈ (uniqueTriples [] ts).take s.maxConstraints
  · exact List.mem_append_left _ hu
  · refine List.mem_append_right _ (List.mem_filter.mpr ⟨h, ?_⟩)
    simp only [Bool.not_eq_true', List.any_eq_false, beq_iff_eq]
    intro t' ht' he
    have hm : t' ∈ ts := (visit_sub [] ts).mem ((List.take_sublist _ _).mem ht')
    have : t = t' := by
      obtain ⟨i, hi, rfl⟩ := List.mem_iff_getElem.mp h
      obtain ⟨j, hj, rfl⟩ := List.mem_iff_getElem.mp hm
      have hij : i = j := by
        unfold List.Nodup at hts
        rw [List.pairwise_iff_getElem] at hts
        rcases Nat.lt_trichotomy i j with h1 | h1 | h1
        · exact absurd (by rw [List.getElem_map, List.getElem_map]; exact he)
            (hts i j (by simpa using hi) (by simpa using hj) h1)
        · exact h1
        · exact absurd (by rw [List.getElem_map, List.getElem_map]; exact he.symm)
            (hts j i (by simpa using hj) (by simpa using hi) h1)
      subst hij; rfl
    exact hu (this ▸ ht')

theorem orderTriples_nodup {s : Settings} {ts : List Triple} (hts : (ts.map Prod.fst).Nodup) :
    ((orderTriples s ts).map Prod.fst).Nodup := by
  unfold orderTriples
  rw [List.map_append, List.nodup_append]
  refine ⟨?_, ?_, ?_⟩
  · exact (((List.take_sublist _ _).trans (visit_sub [] ts)).map _).nodup hts
  · exact ((List.filter_sublist).map _).nodup hts
  · intro a ha b hb hab
    subst hab
    obtain ⟨t, ht, rfl⟩ := List.mem_map.mp ha
    obtain ⟨t', ht', he⟩ := List.mem_map.mp hb
    have := (List.mem_filter.mp ht').2
    simp only [Bool.not_eq_true', List.any_eq_false, beq_iff_eq] at this
    exact this t ht he

/-! ### Covisibility -/

/-- The landmark is seen by the view. -/
theorem sees_iff {R : Recon P} {l v : Nat} : R.sees l v = true ↔ ∃ f, R.Observes l v f := by
  unfold sees Observes
  cases h : R.landmarks.get l with
  | none => simp
  | some L => simp [Option.isSome_iff_exists]

theorem addCovis_get (view l : Nat) (ws : List Nat) : ∀ (m : FMap (List Nat)), ws.Nodup →
    ∀ w, (addCovis view l ws m).get w =
      if w ∈ ws ∧ w ≠ view then some ((m.get w).getD [] ++ [l]) else m.get w := by
  induction ws with
  | nil => intro m _ w; simp [addCovis]
  | cons x xs ih =>
    intro m hnd w
    simp only [List.nodup_cons] at hnd
    unfold addCovis
    rw [ih _ hnd.2]
    by_cases hx : x = view
    · rw [if_pos hx]
      by_cases hw : w = x
      · subst hw
        simp [hx]
      · simp [hw]
    · rw [if_neg hx]
      have hg : (pushCovis l x m).get w =
          if w = x then some ((m.get x).getD [] ++ [l]) else m.get w := by
        unfold pushCovis
        cases hm : m.get x with
        | none =>
          simp only
          rw [FMap.get_push]
          by_cases hw : w = x
          · subst hw; simp [hm]
          · simp [hw]
        | some ls =>
          simp only
          rw [FMap.get_modify]
          by_cases hw : w = x
          · subst hw; simp [hm]
          · simp [hw]
      simp only [hg]
      by_cases hw : w = x
      · subst hw
        simp [hnd.1, hx]
      · simp [hw]

theorem addCovis_wf (view l : Nat) (ws : List Nat) : ∀ (m : FMap (List Nat)), m.WF →
    (addCovis view l ws m).WF := by
  induction ws with
  | nil => intro m h; exact h
  | cons x xs ih =>
    intro m h
    unfold addCovis
    apply ih
    split
    · exact h
    · unfold pushCovis
      cases hm : m.get x with
      | none => exact FMap.wf_push h hm _
      | some ls => exact FMap.wf_modify h _ _

/-- The landmarks of `ls` that triangulate robustly and are seen by `w`. -/
def coLandmarks (ω : Oracle P) (R : Recon P) (w : Nat) (ls : List Nat) : List Nat :=
  ls.filter (fun l => ω.triangulates R l && R.sees l w)

theorem covisLoop_spec (ω : Oracle P) {R : Recon P} (hR : R.Consistent) (view : Nat)
    (ls : List Nat) : ∀ (m : FMap (List Nat)), m.WF → (∀ l, l ∈ ls → R.LiveLandmark l) →
    ∃ m', covisLoop ω R view ls m = some m' ∧ m'.WF ∧
      ∀ w, m'.get w = if w ≠ view ∧ coLandmarks ω R w ls ≠ [] then
        some ((m.get w).getD [] ++ coLandmarks ω R w ls) else m.get w := by
  induction ls with
  | nil => intro m hm _; exact ⟨m, rfl, hm, by intro w; simp [coLandmarks]⟩
  | cons l ls ih =>
    intro m hm hlive
    obtain ⟨L, hL⟩ := hlive l (by simp)
    have hLwf := hR.obsWF l L hL
    by_cases ht : ω.triangulates R l
    · obtain ⟨m', h1, h2, h3⟩ := ih (addCovis view l L.keys m) (addCovis_wf _ _ _ _ hm)
        (fun l hl => hlive l (List.mem_cons_of_mem _ hl))
      refine ⟨m', by simp only [covisLoop, hL, ht, if_true, h1], h2, ?_⟩
      intro w
      rw [h3, addCovis_get view l L.keys m hLwf]
      have hmem : w ∈ L.keys ↔ (L.get w).isSome := by
        rw [FMap.mem_keys_iff, Option.isSome_iff_exists]
      by_cases hs : (L.get w).isSome = true
      · have hc : coLandmarks ω R w (l :: ls) = l :: coLandmarks ω R w ls := by
          unfold coLandmarks
          rw [List.filter_cons]
          simp [ht, sees, hL, hs]
        rw [hc]
        by_cases hw : w = view
        · simp [hw]
        · by_cases hn : coLandmarks ω R w ls = []
          · simp [hw, hn, hmem, hs]
          · simp [hw, hn, hmem, hs]
      · have hc : coLandmarks ω R w (l :: ls) = coLandmarks ω R w ls := by
          unfold coLandmarks
          rw [List.filter_cons]
          simp [ht, sees, hL, hs]
        rw [hc]
        simp only [hmem, hs]
        simp
    · obtain ⟨m', h1, h2, h3⟩ := ih m hm (fun l hl => hlive l (List.mem_cons_of_mem _ hl))
      refine ⟨m', ?_, h2, ?_⟩
      · simp only [covisLoop, hL, h1]
        simp [ht]
      · intro w
        rw [h3]
        have hc : coLandmarks ω R w (l :: ls) = coLandmarks ω R w ls := by
          unfold coLandmarks
          rw [List.filter_cons]
          simp [ht]
        rw [hc]

theorem retain_get {α : Type} {m : FMap α} (hm : m.WF) (p : α → Bool) (w : Nat) (x : α) :
    (⟨m.entries.filter (fun e => p e.2)⟩ : FMap α).get w = some x ↔
      m.get w = some x ∧ p x = true := by
  have hwf : (⟨m.entries.filter (fun e => p e.2)⟩ : FMap α).WF :=
    ((List.filter_sublist).map _).nodup hm
  rw [← FMap.mem_iff_get hwf, ← FMap.mem_iff_get hm]
  simp [List.mem_filter]

theorem view_landmarks_nodup {R : Recon P} (hR : R.Consistent) {v : Nat} {V : View P}
    (hV : R.views.get v = some V) : V.landmarks.Nodup := by
  unfold List.Nodup
  rw [List.pairwise_iff_getElem]
  intro i j hi hj hij he
  have h1 : R.Assigned v i V.landmarks[i] := ⟨V, hV, List.getElem?_eq_getElem hi⟩
  have h2 : R.Assigned v j V.landmarks[i] := ⟨V, hV, by rw [he]; exact List.getElem?_eq_getElem hj⟩
  have := assigned_inj hR h1 h2
  omega

/-- What a recorded constraint must satisfy: it relates `view` to two other live views, the three
have enough robustly triangulated landmarks in common, and its poses are the optimised ones for
them. -/
structure GoodConstraint (ω : Oracle P) (R : Recon P) (view : Nat) (s : Settings)
    (c : Constraint P) : Prop where
  live0 : R.LiveView c.v0
  live1 : R.LiveView c.v1
  live2 : R.LiveView c.v2
  lt01 : c.v0 < c.v1
  lt12 : c.v1 < c.v2
  mentions : c.mentions view = true
  covisible : ∃ ls : List Nat, ls.Nodup ∧ s.minCovisible ≤ ls.length ∧
    s.minOptLandmarks ≤ ls.length ∧
    ω.optimise R (c.v0, c.v1, c.v2) ls = some (c.first, c.second) ∧ ∀ l, l ∈ ls →
    ω.triangulates R l = true ∧
    (∃ f, R.Observes l c.v0 f) ∧ (∃ f, R.Observes l c.v1 f) ∧ (∃ f, R.Observes l c.v2 f)

/-- A usable candidate triple. -/
structure GoodTriple (ω : Oracle P) (R : Recon P) (view n : Nat) (t : Triple) : Prop where
  live0 : R.LiveView t.1.1
  live1 : R.LiveView t.1.2.1
  live2 : R.LiveView t.1.2.2
  lt01 : t.1.1 < t.1.2.1
  lt12 : t.1.2.1 < t.1.2.2
  mentions : view = t.1.1 ∨ view = t.1.2.1 ∨ view = t.1.2.2
  nodup : t.2.Nodup
  len : n ≤ t.2.length
  obs : ∀ l, l ∈ t.2 → ω.triangulates R l = true ∧
    (∃ f, R.Observes l t.1.1 f) ∧ (∃ f, R.Observes l t.1.2.1 f) ∧ (∃ f, R.Observes l t.1.2.2 f)

theorem optimizeThreeView_ok (ω : Oracle P) (s : Settings) {R : Recon P} {view n : Nat}
    {t : Triple} (ht : GoodTriple ω R view n t) :
    ∃ x, optimizeThreeView ω s R t.1 t.2 = some x ∧
      ∀ c, x = some c → (c.v0, c.v1, c.v2) = t.1 ∧ s.minOptLandmarks ≤ t.2.length ∧
        ω.optimise R t.1 t.2 = some (c.first, c.second) := by
  unfold optimizeThreeView
  by_cases hl : t.2.length < s.minOptLandmarks
  · rw [if_pos hl]; exact ⟨none, rfl, by intro c h; cases h⟩
  · rw [if_neg hl]
    have hc : ((R.views.get t.1.1).isSome && (R.views.get t.1.2.1).isSome &&
        (R.views.get t.1.2.2).isSome &&
      t.2.all (fun l => R.sees l t.1.1 && R.sees l t.1.2.1 && R.sees l t.1.2.2))
        = true := by
      obtain ⟨_, h0⟩ := ht.live0
      obtain ⟨_, h1⟩ := ht.live1
      obtain ⟨_, h2⟩ := ht.live2
      simp only [h0, h1, h2, Option.isSome_some, Bool.true_and, List.all_eq_true]
      intro l hl
      obtain ⟨_, h0, h1, h2⟩ := ht.obs l hl
      rw [sees_iff.mpr h0, sees_iff.mpr h1, sees_iff.mpr h2]; rfl
    rw [if_pos hc]
    refine ⟨_, rfl, ?_⟩
    intro c h
    cases ho : ω.optimise R t.1 t.2 with
    | none => rw [ho] at h; cases h
    | some p => rw [ho] at h; cases h; exact ⟨rfl, by omega, rfl⟩

theorem optimizeAll_ok (ω : Oracle P) (s : Settings) {R : Recon P} {view n : Nat}
    (ts : List Triple) : (∀ t, t ∈ ts → GoodTriple ω R view n t) →
    ∃ cs, optimizeAll ω s R ts = some cs ∧
      (cs.map (fun c => (c.v0, c.v1, c.v2))).Sublist (ts.map Prod.fst) ∧
      ∀ c, c ∈ cs → ∃ t, t ∈ ts ∧ (c.v0, c.v1, c.v2) = t.1 ∧ s.minOptLandmarks ≤ t.2.length ∧
        ω.optimise R t.1 t.2 = some (c.first, c.second) := by
  induction ts with
  | nil => intro _; exact ⟨[], rfl, by simp, by simp⟩
  | cons t ts ih =>
    intro h
    obtain ⟨x, hx, hxc⟩ := optimizeThreeView_ok ω s (h t (by simp))
    obtain ⟨cs, hcs, hsub, hpos⟩ := ih (fun t ht => h t (List.mem_cons_of_mem _ ht))
    have hpos' : ∀ c, c ∈ cs → ∃ t', t' ∈ t :: ts ∧ (c.v0, c.v1, c.v2) = t'.1 ∧
        s.minOptLandmarks ≤ t'.2.length ∧ ω.optimise R t'.1 t'.2 = some (c.first, c.second) := by
      intro c hc
      obtain ⟨t', h1, h2⟩ := hpos c hc
      exact ⟨t', List.mem_cons_of_mem _ h1, h2⟩
    cases x with
    | none =>
      exact ⟨cs, by simp only [optimizeAll, hx, hcs], List.Sublist.cons _ hsub, hpos'⟩
    | some c =>
      refine ⟨c :: cs, by simp only [optimizeAll, hx, hcs], ?_, ?_⟩
      · simp only [List.map_cons]
        rw [(hxc c rfl).1]
        exact List.Sublist.cons_cons _ hsub
      · intro c' hc'
        rcases List.mem_cons.mp hc' with rfl | hc'
        · exact ⟨t, by simp, hxc _ rfl⟩
        · exact hpos' c' hc'

/-- Everything about the generated constraints. -/
theorem generate_ok (ω : Oracle P) (s : Settings) {R : Recon P} (hR : R.Consistent) {view : Nat}
    (hv : R.LiveView view) (ho : ∀ l, (ω.order l).Perm l) (hs : ∀ ts, (ω.sort ts).Perm ts) :
    ∃ cs, generateViewConstraints ω s R view = some cs ∧ cs.length ≤ s.maxConstraints ∧
      (cs.map (fun c => (c.v0, c.v1, c.v2))).Nodup ∧
      ∀ c, c ∈ cs → GoodConstraint ω R view s c := by
  obtain ⟨V, hV⟩ := hv
  obtain ⟨m, hm, hmwf, hmget⟩ := covisLoop_spec ω hR view V.landmarks FMap.empty FMap.wf_empty (by
    intro l hl
    obtain ⟨f, hf⟩ := List.mem_iff_getElem?.mp hl
    exact assigned_live hR ⟨V, hV, hf⟩)
  let m2 : FMap (List Nat) := ⟨m.entries.filter (fun e => decide (s.minCovisible ≤ e.2.length))⟩
  have hm2wf : m2.WF := ((List.filter_sublist).map _).nodup hmwf
  have hm2 : ∀ w ls, m2.get w = some ls →
      w ≠ view ∧ ls = coLandmarks ω R w V.landmarks := by
    intro w ls h
    have h' := ((retain_get hmwf (fun ls => decide (s.minCovisible ≤ ls.length)) w ls).mp h).1
    rw [hmget] at h'
    split at h'
    · rename_i hc
      simp at h'
      exact ⟨hc.1, h'.symm⟩
    · simp at h'
  have hcoL : ∀ w l, l ∈ coLandmarks ω R w V.landmarks → ω.triangulates R l = true ∧
      (∃ f, R.Observes l w f) ∧ (∃ f, R.Observes l view f) := by
    intro w l hl
    obtain ⟨h1, h2⟩ := List.mem_filter.mp hl
    simp only [Bool.and_eq_true] at h2
    refine ⟨h2.1, ?_, ?_⟩
    · exact sees_iff.mp h2.2
    · obtain ⟨f, hf⟩ := List.mem_iff_getElem?.mp h1
      exact ⟨f, (hR.agree view f l).mp ⟨V, hV, hf⟩⟩
  have hnd : (ω.order m2.keys).Nodup := (ho _).nodup_iff.mpr hm2wf
  have hkeys : ∀ w, w ∈ ω.order m2.keys →
      m2.get w = some (coLandmarks ω R w V.landmarks) ∧ w ≠ view := by
    intro w hw
    have := (ho _).mem_iff.mp hw
    obtain ⟨ls, hls⟩ := (FMap.mem_keys_iff _ _).mp this
    obtain ⟨h1, h2⟩ := hm2 w ls hls
    exact ⟨by rw [hls, h2], h1⟩
  let ts := candidateTriples s view m2 (ω.order m2.keys)
  have hlive : ∀ w l, (∃ f, R.Observes l w f) → R.LiveView w := by
    rintro w l ⟨f, hf⟩
    obtain ⟨W, hW, _⟩ := (hR.agree w f l).mpr hf
    exact ⟨W, hW⟩
  have hgood : ∀ t, t ∈ ts → GoodTriple ω R view s.minCovisible t := by
    intro t ht
    obtain ⟨hmem, hlen⟩ := List.mem_filter.mp ht
    obtain ⟨⟨a, b⟩, hp, rfl⟩ := List.mem_map.mp hmem
    simp only at hlen
    obtain ⟨ha, hb⟩ := pairs_mem hp
    have hab := pairs_ne hnd hp
    obtain ⟨ha1, ha2⟩ := hkeys a ha
    obtain ⟨hb1, hb2⟩ := hkeys b hb
    obtain ⟨hperm, hle1, hle2⟩ := Data.canonical_perm view a b
    have hcommon : ∀ l, l ∈ commonLandmarks m2 a b → ω.triangulates R l = true ∧
        (∃ f, R.Observes l view f) ∧ (∃ f, R.Observes l a f) ∧ (∃ f, R.Observes l b f) := by
      intro l hl
      unfold commonLandmarks at hl
      obtain ⟨h1, h2⟩ := List.mem_filter.mp hl
      rw [ha1] at h1
      rw [hb1] at h2
      simp only [Option.getD_some] at h1 h2
      obtain ⟨e1, e2, e3⟩ := hcoL a l h1
      obtain ⟨_, e4, _⟩ := hcoL b l (by simpa using h2)
      exact ⟨e1, e3, e2, e4⟩
    have hall : ∀ x, x ∈ [view, a, b] → R.LiveView x := by
      have hal : ∀ w, w ∈ ω.order m2.keys → R.LiveView w := by
        intro w hw
        obtain ⟨h1, h2⟩ := hkeys w hw
        have h' := ((retain_get hmwf (fun ls => decide (s.minCovisible ≤ ls.length)) w _).mp h1).1
        rw [hmget] at h'
        split at h'
        · rename_i hc
          obtain ⟨l, hl⟩ := List.exists_mem_of_ne_nil _ hc.2
          exact hlive w l (hcoL w l hl).2.1
        · simp at h'
      intro x hx
      simp at hx
      rcases hx with rfl | rfl | rfl
      · exact ⟨V, hV⟩
      · exact hal _ ha
      · exact hal _ hb
    have hnd3 : [view, a, b].Nodup := by
      simp [Ne.symm ha2, Ne.symm hb2, hab]
    have hnd3' := hperm.nodup_iff.mpr hnd3
    simp only [List.nodup_cons, List.mem_cons, not_or, List.not_mem_nil] at hnd3'
    have hobs : ∀ x, x ∈ [view, a, b] → ∀ l, l ∈ commonLandmarks m2 a b →
        ∃ f, R.Observes l x f := by
      intro x hx l hl
      obtain ⟨_, h1, h2, h3⟩ := hcommon l hl
      simp at hx
      rcases hx with rfl | rfl | rfl
      · exact h1
      · exact h2
      · exact h3
    refine ⟨hall _ (hperm.mem_iff.mp (by simp)), hall _ (hperm.mem_iff.mp (by simp)),
      hall _ (hperm.mem_iff.mp (by simp)), ?_, ?_, ?_, ?_, by simpa using hlen, ?_⟩
    · exact Nat.lt_of_le_of_ne hle1 hnd3'.1.1
    · exact Nat.lt_of_le_of_ne hle2 hnd3'.2.1.1
    · have := hperm.mem_iff.mpr (show view ∈ [view, a, b] by simp)
      simpa using this
    · unfold commonLandmarks
      rw [ha1]
      exact (List.filter_sublist.trans List.filter_sublist).nodup (view_landmarks_nodup hR hV)
    · intro l hl
      exact ⟨(hcommon l hl).1, hobs _ (hperm.mem_iff.mp (by simp)) l hl,
        hobs _ (hperm.mem_iff.mp (by simp)) l hl, hobs _ (hperm.mem_iff.mp (by simp)) l hl⟩
  have htnd : (ts.map Prod.fst).Nodup := by
    have : (((pairs (ω.order m2.keys)).map (fun p =>
      (Data.canonicalViewOrder view p.1 p.2, commonLandmarks m2 p.1 p.2))).map Prod.fst).Nodup := by
      rw [List.map_map]
      unfold List.Nodup
      rw [List.pairwise_map]
      exact List.Pairwise.imp (fun h he => h (Data.canonical_inj he)) (pairs_distinct hnd)
    exact ((List.filter_sublist).map _).nodup this
  have hsp := hs ts
  have hsnd : ((ω.sort ts).map Prod.fst).Nodup := (hsp.map _).nodup_iff.mpr htnd
  obtain ⟨cs, hcs, hsub, hpos⟩ := optimizeAll_ok ω s (view := view) (n := s.minCovisible)
    (orderTriples s (ω.sort ts)) (fun t ht => hgood t (hsp.mem_iff.mp (orderTriples_mem ht)))
  refine ⟨cs.take s.maxConstraints, ?_, by simp; omega, ?_, ?_⟩
  · unfold generateViewConstraints viewCovisibilities
    simp only [hV, hm]
    show (match optimizeAll ω s R (orderTriples s (ω.sort ts)) with
      | none => none
      | some cs => some (cs.take s.maxConstraints)) = _
    rw [hcs]
  · exact (((List.take_sublist _ _).map _).trans hsub).nodup (orderTriples_nodup hsnd)
  · intro c hc
    obtain ⟨t, ht, he, hmin, hopt⟩ := hpos c ((List.take_sublist _ _).mem hc)
    have hg := hgood t (hsp.mem_iff.mp (orderTriples_mem ht))
    obtain ⟨⟨t0, t1, t2⟩, ls⟩ := t
    simp only [Prod.mk.injEq] at he
    obtain ⟨rfl, rfl, rfl⟩ := he
    refine ⟨hg.live0, hg.live1, hg.live2, hg.lt01, hg.lt12, ?_, ls, hg.nodup, hg.len, hmin, hopt,
      hg.obs⟩
    unfold Constraint.mentions
    have := hg.mentions
    simp only at this
    simp only [Bool.or_eq_true, beq_iff_eq]
    rcases this with h | h | h
    · exact Or.inl (Or.inl h.symm)
    · exact Or.inl (Or.inr h.symm)
    · exact Or.inr h.symm

theorem insertConstraints_ok (cs : List (Constraint P)) : ∀ {R : Recon P}, R.Consistent →
    (∀ c, c ∈ cs → R.LiveView c.v0 ∧ R.LiveView c.v1 ∧ R.LiveView c.v2 ∧
      c.v0 < c.v1 ∧ c.v1 < c.v2) →
    (insertConstraints cs R).Consistent ∧ (insertConstraints cs R).views = R.views ∧
      (insertConstraints cs R).landmarks = R.landmarks := by
  induction cs with
  | nil => intro R hR _; exact ⟨hR, rfl, rfl⟩
  | cons c cs ih =>
    intro R hR h
    obtain ⟨h0, h1, h2, h3, h4⟩ := h c (by simp)
    obtain ⟨a, b, d⟩ := ih (addConstraint_consistent hR c h0 h1 h2 (by omega) (by omega) (by omega))
      (fun c hc => h c (List.mem_cons_of_mem _ hc))
    exact ⟨a, b, d⟩

/-- `record_view_constraints` never panics and keeps everything but the constraints. -/
theorem record_ok (ω : Oracle P) (s : Settings) {R : Recon P} (hR : R.Consistent) {view : Nat}
    (hv : R.LiveView view) (ho : ∀ l, (ω.order l).Perm l) (hs : ∀ ts, (ω.sort ts).Perm ts) :
    ∃ R' x, R.recordViewConstraints ω s view = some (R', x) ∧ R'.Consistent ∧
      R'.views = R.views ∧ R'.landmarks = R.landmarks ∧ (x = false → R' = R) := by
  obtain ⟨cs, hcs, _, _, hgood⟩ := generate_ok ω s hR hv ho hs
  unfold recordViewConstraints
  simp only [hcs]
  split
  · exact ⟨R, false, rfl, hR, rfl, rfl, fun _ => rfl⟩
  · obtain ⟨h1, h2, h3⟩ := insertConstraints_ok cs hR (fun c hc =>
      let g := hgood c hc
      ⟨g.live0, g.live1, g.live2, g.lt01, g.lt12⟩)
    exact ⟨_, true, rfl, h1, h2, h3, fun h => by cases h⟩

end Recon
end Verif.Sfm
