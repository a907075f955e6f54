import Verif.Lemmas.SfmHistory
import Verif.Lemmas.LogMap
import Verif.Lemmas.GraphDescent
import Verif.Spec.PoseGraph

/-! Helper lemmas: the optimisation of the poses as an iteration of one map. -/

namespace Verif.Sfm

open Verif.Geo

/-- One round of the optimisation for one view. -/
noncomputable def graphStep (rate : ℝ) (edges : List (Nat × Nat × Iso ℝ)) (X : Nat → Iso ℝ) (v : Nat) : Iso ℝ :=
  ((Tangent.sum ((edges.filter (fun e => e.1 == v)).map
    (fun e => ((e.2.2.mul (X e.2.1)).mul (X v).inv).se3))).scale rate).pose.mul (X v)

theorem mapM_map_some {α β : Type} {f : α → Option β} {g : α → β} {l : List α} (h : ∀ a ∈ l, f a = some (g a)) :
    l.mapM f = some (l.map g) := by
  induction l with
  | nil => rfl
  | cons a l ih =>
    rw [List.mapM_cons, h a (by simp), ih (fun b hb => h b (by simp [hb]))]
    rfl

/-! ## Placing the cameras -/

section
variable {P : Type}

theorem Recon.placed_views (R : Recon P) (Y : Nat → P) (v : Nat) :
    (R.placed Y).views.get v = (R.views.get v).map (fun V => { V with pose := Y v }) := by
  show List.lookup v (R.views.map.entries.map (fun e => (e.1, { e.2 with pose := Y e.1 }))) =
    (List.lookup v R.views.map.entries).map _
  induction R.views.map.entries with
  | nil => rfl
  | cons e l ih =>
    obtain ⟨k, V⟩ := e
    rw [List.map_cons, List.lookup_cons, List.lookup_cons, ih]
    by_cases h : v = k
    · subst h; simp
    · have : (v == k) = false := by simp [h]
      rw [this]

theorem Recon.placed_keys (R : Recon P) (Y : Nat → P) : (R.placed Y).views.keys = R.views.keys := by
  show ((R.views.map.entries.map _).map Prod.fst) = R.views.map.entries.map Prod.fst
  rw [List.map_map]
  rfl

theorem Recon.placed_placed (R : Recon P) (Y Z : Nat → P) : (R.placed Y).placed Z = R.placed Z := by
  unfold Recon.placed
  simp only [List.map_map]
  rfl

theorem Recon.placed_congr (R : Recon P) {Y Z : Nat → P} (h : ∀ v, R.LiveView v → Y v = Z v) :
    R.placed Y = R.placed Z := by
  have : R.views.map.entries.map (fun e => (e.1, { e.2 with pose := Y e.1 })) =
      R.views.map.entries.map (fun e => (e.1, { e.2 with pose := Z e.1 })) := by
    apply List.map_congr_left
    intro e he
    rw [h]
    exact (FMap.mem_keys_iff R.views.map e.1).mp (List.mem_map_of_mem he)
  unfold Recon.placed
  rw [this]

theorem Recon.placed_size (R : Recon P) (Y : Nat → P) : (R.placed Y).views.size = R.views.size := by
  show (R.views.map.entries.map _).length = R.views.map.entries.length
  rw [List.length_map]

theorem Recon.placed_live (R : Recon P) (Y : Nat → P) (v : Nat) : (R.placed Y).LiveView v ↔ R.LiveView v := by
  unfold Recon.LiveView
  rw [R.placed_views]
  cases R.views.get v <;> simp

end

theorem Recon.placed_poseAt (R : Recon (Iso ℝ)) (Y : Nat → Iso ℝ) {v : Nat} (h : R.LiveView v) :
    (R.placed Y).poseAt v = Y v := by
  unfold Recon.poseAt
  rw [R.placed_views]
  obtain ⟨V, hV⟩ := h
  rw [hV]
  rfl

theorem Recon.placed_self (R : Recon (Iso ℝ)) (hw : R.views.WF) : R.placed R.poseAt = R := by
  have : R.views.map.entries.map (fun e => (e.1, { e.2 with pose := R.poseAt e.1 })) = R.views.map.entries := by
    conv_rhs => rw [← List.map_id R.views.map.entries]
    apply List.map_congr_left
    intro e he
    have h1 : R.views.get e.1 = some e.2 := FMap.get_of_mem hw.nodup he
    have h2 : R.poseAt e.1 = e.2.pose := by
      unfold Recon.poseAt
      rw [h1]
      rfl
    rw [h2]
    rfl
  unfold Recon.placed
  rw [this]

/-! ## Updating the poses -/

section
variable {P : Type}

/-- The reconstruction with the poses of some views replaced. -/
def Recon.placedOn (R : Recon P) (vs : List Nat) (Y : Nat → P) : Recon P :=
  { R with views := ⟨⟨R.views.map.entries.map
    (fun e => (e.1, if e.1 ∈ vs then { e.2 with pose := Y e.1 } else e.2))⟩, R.views.next⟩ }

theorem Recon.placedOn_cons (R : Recon P) (v : Nat) (vs : List Nat) (Y : Nat → P) :
    ({ R with views := R.views.modify v (fun V => { V with pose := Y v }) } : Recon P).placedOn vs Y =
      R.placedOn (v :: vs) Y := by
  unfold Recon.placedOn SlotMap.modify FMap.modify
  simp only [List.map_map]
  congr 2
  congr 1
  apply List.map_congr_left
  intro e _
  by_cases h : e.1 = v
  · subst h
    simp
  · by_cases h' : e.1 ∈ vs <;> simp [h, h']

theorem Recon.placedOn_nil (R : Recon P) (Y : Nat → P) : R.placedOn [] Y = R := by
  unfold Recon.placedOn
  simp

theorem Recon.placedOn_keys (R : Recon P) (Y : Nat → P) : R.placedOn R.views.keys Y = R.placed Y := by
  have : R.views.map.entries.map (fun e => (e.1, if e.1 ∈ R.views.keys then { e.2 with pose := Y e.1 } else e.2)) =
      R.views.map.entries.map (fun e => (e.1, { e.2 with pose := Y e.1 })) := by
    apply List.map_congr_left
    intro e he
    rw [if_pos]
    exact List.mem_map_of_mem he
  unfold Recon.placedOn Recon.placed
  rw [this]

theorem SlotMap.modify_modify {α : Type} (m : SlotMap α) (k : Nat) (f g : α → α) :
    (m.modify k f).modify k g = m.modify k (fun a => g (f a)) := by
  unfold SlotMap.modify FMap.modify
  simp only [List.map_map]
  congr 2
  apply List.map_congr_left
  intro e _
  by_cases h : e.1 = k <;> simp [h]

theorem SlotMap.modify_self {α : Type} {m : SlotMap α} (hw : m.WF) {k : Nat} {a : α} (h : m.get k = some a) :
    m.modify k (fun _ => a) = m := by
  have : m.map.entries.map (fun p => if p.1 = k then (p.1, a) else p) = m.map.entries := by
    conv_rhs => rw [← List.map_id m.map.entries]
    apply List.map_congr_left
    rintro ⟨j, b⟩ he
    by_cases hj : j = k
    · subst hj
      have := FMap.get_of_mem hw.nodup he
      rw [show m.map.get j = some a from h] at this
      cases this
      simp
    · simp [hj]
  unfold SlotMap.modify FMap.modify
  rw [this]

theorem Data.withRecon_get {d : Data P} {r : Nat} {R : Recon P} (h : d.recons.get r = some R) (R' : Recon P) :
    (d.withRecon r R').recons.get r = some R' := by
  unfold Data.withRecon
  rw [SlotMap.get_modify, h]
  simp

theorem Data.withRecon_withRecon (d : Data P) (r : Nat) (R R' : Recon P) :
    (d.withRecon r R).withRecon r R' = d.withRecon r R' := by
  unfold Data.withRecon
  simp only [SlotMap.modify_modify]

theorem Data.withRecon_self {d : Data P} (hd : d.recons.WF) {r : Nat} {R : Recon P} (h : d.recons.get r = some R) :
    d.withRecon r R = d := by
  unfold Data.withRecon
  rw [SlotMap.modify_self hd h]

theorem Data.updatePoses_eq {r : Nat} (Y : Nat → P) : ∀ (vs : List Nat) {d : Data P} {R : Recon P}, d.recons.WF →
    d.recons.get r = some R → (∀ v ∈ vs, R.LiveView v) →
    Data.updatePoses r (vs.map (fun v => (v, Y v))) d = some (d.withRecon r (R.placedOn vs Y))
  | [], d, R, hw, h, _ => by
    rw [R.placedOn_nil, Data.withRecon_self hw h]
    rfl
  | v :: vs, d, R, hw, h, hl => by
    obtain ⟨V, hV⟩ := hl v (by simp)
    rw [List.map_cons, Data.updatePoses]
    unfold Data.onRecon
    rw [h]
    simp only [hV]
    have hR1 : ({ d with recons := d.recons.modify r (fun _ =>
        { R with views := R.views.modify v (fun V => { V with pose := Y v }) }) } : Data P) =
        d.withRecon r { R with views := R.views.modify v (fun V => { V with pose := Y v }) } := rfl
    rw [hR1, Data.updatePoses_eq Y vs (R := { R with views := R.views.modify v (fun V => { V with pose := Y v }) })
      (SlotMap.wf_modify hw _ _) (Data.withRecon_get h _)]
    · rw [Data.withRecon_withRecon, Recon.placedOn_cons]
    · intro u hu
      obtain ⟨U, hU⟩ := hl u (by simp [hu])
      unfold Recon.LiveView
      rw [SlotMap.get_modify, hU]
      by_cases huv : u = v <;> simp [huv]

end

/-! ## The rounds -/

theorem constrainPose_eq (rate : ℝ) {R : Recon (Iso ℝ)} {v : Nat} (hv : R.LiveView v) {edges : List (Nat × Nat × Iso ℝ)}
    (hl : ∀ e ∈ edges, R.LiveView e.2.1) :
    constrainPose rate R v ((edges.filter (fun e => e.1 == v)).map Prod.snd) = some (graphStep rate edges R.poseAt v) := by
  obtain ⟨V, hV⟩ := hv
  have hX : R.poseAt v = V.pose := by
    unfold Recon.poseAt
    rw [hV]
    rfl
  unfold constrainPose
  rw [hV]
  simp only [Option.bind_eq_bind, Option.bind_some]
  rw [mapM_map_some (g := fun e => ((e.2.mul (R.poseAt e.1)).mul V.pose.inv).se3)]
  · rw [List.map_map]
    unfold graphStep
    rw [hX]
    rfl
  · intro e he
    obtain ⟨e', he', rfl⟩ := List.mem_map.mp he
    obtain ⟨O, hO⟩ := hl e' (List.mem_filter.mp he').1
    have hXO : R.poseAt e'.2.1 = O.pose := by
      unfold Recon.poseAt
      rw [hO]
      rfl
    rw [hO, hXO]
    rfl

theorem constrainViews_eq (ω : Oracle (Iso ℝ)) (rate : ℝ) {R : Recon (Iso ℝ)} {edges : List (Nat × Nat × Iso ℝ)}
    (hl : ∀ e ∈ edges, R.LiveView e.2.1) :
    ∀ vs : List Nat, (∀ v ∈ vs, R.LiveView v ∧ ∃ e ∈ edges, e.1 = v) →
    R.constrainViews (ω.withRate rate) edges vs = some (vs.map (fun v => (v, graphStep rate edges R.poseAt v)), [])
  | [], _ => rfl
  | v :: vs, h => by
    obtain ⟨hv, e, he, hev⟩ := h v (by simp)
    have h1 : R.constrainView (ω.withRate rate) edges v = some (some (graphStep rate edges R.poseAt v)) := by
      unfold Recon.constrainView
      have hmem : e.2 ∈ (edges.filter (fun e => e.1 == v)).map Prod.snd :=
        List.mem_map_of_mem (List.mem_filter.mpr ⟨he, by simp [hev]⟩)
      have hne : ((edges.filter (fun e => e.1 == v)).map Prod.snd).isEmpty = false := by
        rw [List.isEmpty_eq_false_iff]
        exact List.ne_nil_of_mem hmem
      have hall : ((edges.filter (fun e => e.1 == v)).map Prod.snd).all (fun e => (R.views.get e.1).isSome) = true := by
        rw [List.all_eq_true]
        intro e he
        obtain ⟨e', he', rfl⟩ := List.mem_map.mp he
        obtain ⟨O, hO⟩ := hl e' (List.mem_filter.mp he').1
        rw [hO]
        rfl
      simp only [hne, hall, Bool.false_eq_true, if_false, if_true]
      exact congrArg some (constrainPose_eq rate hv hl)
    have h2 := constrainViews_eq ω rate hl vs (fun u hu => h u (by simp [hu]))
    rw [Recon.constrainViews, h1, h2]
    rfl

theorem graphStep_congr (rate : ℝ) (edges : List (Nat × Nat × Iso ℝ)) {X Y : Nat → Iso ℝ} {v : Nat} (hv : X v = Y v)
    (h : ∀ e ∈ edges, X e.2.1 = Y e.2.1) : graphStep rate edges X v = graphStep rate edges Y v := by
  unfold graphStep
  rw [hv]
  congr 4
  apply List.map_congr_left
  intro e he
  rw [h e (List.mem_filter.mp he).1]

theorem graphStep_iterate_congr (rate : ℝ) (edges : List (Nat × Nat × Iso ℝ)) {L : Nat → Prop}
    (hl : ∀ e ∈ edges, L e.2.1) (n : Nat) : ∀ {X Y : Nat → Iso ℝ}, (∀ v, L v → X v = Y v) →
    ∀ v, L v → (graphStep rate edges)^[n] X v = (graphStep rate edges)^[n] Y v := by
  induction n with
  | zero => intro X Y h v hv; exact h v hv
  | succ n ih =>
    intro X Y h v hv
    rw [Function.iterate_succ_apply, Function.iterate_succ_apply]
    exact ih (fun u hu => graphStep_congr rate edges (h u hu) (fun e he => h _ (hl e he))) v hv

theorem Data.applyLoop_graph (ω : Nat → Oracle (Iso ℝ)) (rate : ℝ) {r : Nat} {edges : List (Nat × Nat × Iso ℝ)} :
    ∀ (n : Nat) {d : Data (Iso ℝ)} {R : Recon (Iso ℝ)}, d.recons.WF → d.recons.get r = some R → R.views.WF →
    3 ≤ R.views.size → (∀ e ∈ edges, R.LiveView e.2.1) → (∀ v, R.LiveView v → ∃ e ∈ edges, e.1 = v) →
    Data.applyLoop (fun i => (ω i).withRate rate) r edges n d =
      some (d.withRecon r (R.placed ((graphStep rate edges)^[n] R.poseAt)), true)
  | 0, d, R, hw, h, hv, _, _, _ => by
    rw [Function.iterate_zero, id, R.placed_self hv, Data.withRecon_self hw h]
    rfl
  | n + 1, d, R, hw, h, hv, h3, hl, hc => by
    rw [Data.applyLoop, h]
    have hk : ∀ v ∈ R.views.keys, R.LiveView v := fun v hv => (SlotMap.mem_keys_iff R.views v).mp hv
    dsimp only
    rw [constrainViews_eq (ω n) rate hl R.views.keys (fun v hv => ⟨hk v hv, hc v (hk v hv)⟩)]
    have hlen : 3 ≤ (R.views.keys.map (fun v => (v, graphStep rate edges R.poseAt v))).length := by
      rw [List.length_map]
      show 3 ≤ (R.views.map.entries.map Prod.fst).length
      rw [List.length_map]
      exact h3
    simp only [if_pos hlen]
    unfold Data.applyBundleAdjust
    rw [Data.updatePoses_eq (graphStep rate edges R.poseAt) R.views.keys hw h hk, R.placedOn_keys]
    simp only [Data.removeViews]
    set R1 := R.placed (graphStep rate edges R.poseAt) with hR1
    have hlive : ∀ v, R1.LiveView v ↔ R.LiveView v := R.placed_live _
    have hW1 : R1.views.WF := by
      refine ⟨?_, ?_⟩
      · show R1.views.keys.Nodup
        rw [hR1, R.placed_keys]
        exact hv.nodup
      · intro k V hV
        rw [hR1, R.placed_views] at hV
        obtain ⟨V0, hV0, _⟩ := Option.map_eq_some_iff.mp hV
        exact hv.fresh k V0 hV0
    rw [Data.applyLoop_graph ω rate n (SlotMap.wf_modify hw _ _) (Data.withRecon_get h R1) hW1
      (by rw [hR1, R.placed_size]; exact h3) (fun e he => (hlive _).mpr (hl e he))
      (fun v hv => hc v ((hlive v).mp hv)), Data.withRecon_withRecon, hR1, R.placed_placed]
    congr 3
    apply R.placed_congr
    intro v hv
    rw [Function.iterate_succ_apply]
    exact graphStep_iterate_congr rate edges (L := R.LiveView) hl n (fun u hu => R.placed_poseAt _ hu) v hv

end Verif.Sfm
