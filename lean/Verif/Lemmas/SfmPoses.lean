import Verif.Lemmas.FMap
import Verif.Model.SfmTop

/-!
# Helpers: a property of all poses, through all calls

`Q` is a property of the poses of views and `K` one of the poses of constraints.
-/

namespace Verif.FMap

variable {α : Type}

theorem mem_modify {m : FMap α} {k : Nat} {f : α → α} {e : Nat × α} (h : e ∈ (m.modify k f).entries) :
    e ∈ m.entries ∨ ∃ v, (k, v) ∈ m.entries ∧ e = (k, f v) := by
  obtain ⟨x, hx, he⟩ := List.mem_map.1 h
  split at he
  · rename_i hk
    right
    refine ⟨x.2, ?_, ?_⟩
    · rw [← hk]; exact hx
    · rw [← he, hk]
  · left
    rw [← he]; exact hx

theorem mem_erase {m : FMap α} {k : Nat} {e : Nat × α} (h : e ∈ (m.erase k).entries) : e ∈ m.entries :=
  (List.mem_filter.1 h).1

theorem mem_push {m : FMap α} {k : Nat} {v : α} {e : Nat × α} (h : e ∈ (m.push k v).entries) :
    e ∈ m.entries ∨ e = (k, v) := by
  rcases List.mem_append.1 h with h | h
  · exact Or.inl h
  · exact Or.inr (List.mem_singleton.1 h)

end Verif.FMap

namespace Verif.Sfm

variable {P : Type} {Q K : P → Prop}

/-- The poses of the views have `Q`, those of the constraints `K`. -/
structure Recon.Poses (Q K : P → Prop) (R : Recon P) : Prop where
  views : ∀ e ∈ R.views.map.entries, Q e.2.pose
  constraints : ∀ e ∈ R.constraints.map.entries, K e.2.first ∧ K e.2.second

/-- All poses of all reconstructions. -/
def Data.Poses (Q K : P → Prop) (d : Data P) : Prop := ∀ e ∈ d.recons.map.entries, e.2.Poses Q K

/-- The three-view optimisation keeps the property. -/
def Oracle.KeepsThree (Q K : P → Prop) (ω : Oracle P) : Prop :=
  ∀ R v ls p, R.Poses Q K → ω.optimise R v ls = some p → K p.1 ∧ K p.2

/-- The optimisation of the views keeps the property. -/
def Oracle.KeepsViews (Q K : P → Prop) (ω : Oracle P) : Prop :=
  ∀ R v es p, R.Poses Q K → (∀ e ∈ es, K e.2) → ω.constrain R v es = some p → Q p

namespace Recon

variable {R R' : Recon P}

theorem Poses.of_modify (h : R.Poses Q K) {v : Nat} {f : View P → View P} (hf : ∀ V, (f V).pose = V.pose)
    (hv : R'.views.map = R.views.map.modify v f) (hc : R'.constraints = R.constraints) : R'.Poses Q K := by
  refine ⟨?_, by rw [hc]; exact h.constraints⟩
  intro e he
  rw [hv] at he
  rcases FMap.mem_modify he with he | ⟨V, hV, rfl⟩
  · exact h.views e he
  · show Q (f V).pose
    rw [hf]
    exact h.views _ hV

theorem Poses.of_eq (h : R.Poses Q K) (hv : R'.views = R.views) (hc : R'.constraints = R.constraints) :
    R'.Poses Q K := ⟨by rw [hv]; exact h.views, by rw [hc]; exact h.constraints⟩

theorem setOwner_poses (h : R.Poses Q K) {v f l : Nat} (hr : R.setOwner v f l = some R') : R'.Poses Q K := by
  unfold setOwner at hr
  split at hr
  · cases hr
  · split at hr
    · cases hr
      exact h.of_modify (v := v) (f := fun V => { V with landmarks := V.landmarks.set f l }) (fun _ => rfl) rfl rfl
    · cases hr

theorem mergeLoop_poses {a : Nat} : ∀ {os : List (Nat × Nat)} {R : Recon P}, R.Poses Q K →
    mergeLoop a os R = some R' → R'.Poses Q K := by
  intro os
  induction os with
  | nil => intro R h hr; cases hr; exact h
  | cons o os ih =>
    intro R h hr
    obtain ⟨v, f⟩ := o
    simp only [mergeLoop] at hr
    split at hr
    · cases hr
    · rename_i R1 h1
      split at hr
      · cases hr
      · split at hr
        · exact ih (Poses.of_eq (R' := { R1 with landmarks := R1.landmarks.modify a (fun A => A.put v f) })
            (setOwner_poses h h1) rfl rfl) hr
        · cases hr

theorem mergeLandmarks_poses (h : R.Poses Q K) {a b : Nat} (hr : R.mergeLandmarks a b = some R') : R'.Poses Q K := by
  unfold mergeLandmarks at hr
  split at hr
  · cases hr
  · exact mergeLoop_poses (R := { R with landmarks := R.landmarks.erase b }) (h.of_eq rfl rfl) hr

theorem observe_poses (h : R.Poses Q K) {l v f : Nat} (hr : R.observe l v f = some R') : R'.Poses Q K := by
  unfold observe at hr
  split at hr
  · cases hr
  · cases hr
    exact h.of_eq rfl rfl

theorem pushOwner_poses (h : R.Poses Q K) {v l : Nat} (hr : R.pushOwner v l = some R') : R'.Poses Q K := by
  unfold pushOwner at hr
  split at hr
  · cases hr
  · cases hr
    exact h.of_modify (v := v) (f := fun V => { V with landmarks := V.landmarks ++ [l] }) (fun _ => rfl) rfl rfl

theorem addFeature_poses (h : R.Poses Q K) {v f : Nat} {ex : Option (List Nat)}
    (hr : R.addFeature v f ex = some R') : R'.Poses Q K := by
  unfold addFeature at hr
  split at hr
  · exact pushOwner_poses (R := R.addLandmark v f) (h.of_eq rfl rfl) hr
  · split at hr
    · cases hr
    · rename_i h1
      exact pushOwner_poses (observe_poses h h1) hr
  · split at hr
    · cases hr
    · rename_i h1
      split at hr
      · cases hr
      · rename_i h2
        exact pushOwner_poses (observe_poses (mergeLandmarks_poses h h1) h2) hr
  · cases hr

theorem addFeatures_poses {v : Nat} {ex : Nat → Option (List Nat)} : ∀ {fs : List Nat} {R : Recon P}, R.Poses Q K →
    addFeatures v ex fs R = some R' → R'.Poses Q K := by
  intro fs
  induction fs with
  | nil => intro R h hr; cases hr; exact h
  | cons f fs ih =>
    intro R h hr
    simp only [addFeatures] at hr
    split at hr
    · cases hr
    · rename_i h1
      exact ih (addFeature_poses h h1) hr

theorem Poses.insert (h : R.Poses Q K) {V : View P} (hV : Q V.pose) :
    ({ R with views := R.views.insert V } : Recon P).Poses Q K := by
  refine ⟨?_, h.constraints⟩
  intro e he
  rcases FMap.mem_push he with he | rfl
  · exact h.views e he
  · exact hV

theorem addView_poses (h : R.Poses Q K) {frame n : Nat} {pose : P} (hp : Q pose) {ex : Nat → Option (List Nat)}
    (hr : R.addView frame pose n ex = some R') : R'.Poses Q K :=
  addFeatures_poses (R := { R with views := R.views.insert ⟨frame, pose, []⟩ }) (h.insert hp) hr

theorem removeObservations_poses {v : Nat} : ∀ {ls : List Nat} {R : Recon P}, R.Poses Q K →
    removeObservations v ls R = some R' → R'.Poses Q K := by
  intro ls
  induction ls with
  | nil => intro R h hr; cases hr; exact h
  | cons l ls ih =>
    intro R h hr
    simp only [removeObservations] at hr
    split at hr
    · cases hr
    · split at hr
      · cases hr
      · split at hr
        · exact ih (h.of_eq (R' := { R with landmarks := R.landmarks.erase l }) rfl rfl) hr
        · exact ih (h.of_eq (R' := { R with landmarks := R.landmarks.modify l (fun L => L.erase v) }) rfl rfl) hr

theorem removeView_poses (h : R.Poses Q K) {v : Nat} (hr : R.removeView v = some R') : R'.Poses Q K := by
  unfold removeView at hr
  split at hr
  · cases hr
  · split at hr
    · cases hr
    · rename_i R1 h1
      cases hr
      have := removeObservations_poses (Q := Q) (K := K)
        (R := { R with views := R.views.modify v (fun V => { V with landmarks := [] }) })
        (h.of_modify (v := v) (f := fun V => { V with landmarks := [] }) (fun _ => rfl) rfl rfl) h1
      exact ⟨fun e he => this.views e (FMap.mem_erase he), fun e he => this.constraints e (List.mem_filter.1 he).1⟩

theorem splitObservation_poses (h : R.Poses Q K) {v f : Nat} {b : Bool} (hr : R.splitObservation v f = some (R', b)) :
    R'.Poses Q K := by
  simp only [splitObservation] at hr
  split at hr
  · cases hr
  · split at hr
    · cases hr
    · split at hr
      · cases hr
      · split at hr
        · split at hr
          · split at hr
            · cases hr
            · rename_i h1
              cases hr
              refine setOwner_poses ?_ h1
              exact ⟨h.views, h.constraints⟩
          · cases hr
        · cases hr
          exact h

theorem splitAll_poses : ∀ {os : List (Nat × Nat)} {R : Recon P}, R.Poses Q K → splitAll os R = some R' →
    R'.Poses Q K := by
  intro os
  induction os with
  | nil => intro R h hr; cases hr; exact h
  | cons o os ih =>
    intro R h hr
    obtain ⟨v, f⟩ := o
    simp only [splitAll] at hr
    split at hr
    · cases hr
    · rename_i h1
      exact ih (splitObservation_poses h h1) hr

theorem splitLandmark_poses (h : R.Poses Q K) {os : List (Nat × Nat)} (hr : R.splitLandmark os = some R') :
    R'.Poses Q K := by
  unfold splitLandmark at hr
  split at hr
  · cases hr
  · exact splitAll_poses h hr

theorem dedupLoop_poses {loss : Recon P → Nat → Nat → Nat} : ∀ {ds : List (Nat × Nat × Nat)} {R : Recon P} {a b : Bool},
    R.Poses Q K → dedupLoop loss ds R a = some (R', b) → R'.Poses Q K := by
  intro ds
  induction ds with
  | nil => intro R a b h hr; cases hr; exact h
  | cons o ds ih =>
    intro R a b h hr
    obtain ⟨v, f, g⟩ := o
    simp only [dedupLoop] at hr
    split at hr
    · cases hr
    · rename_i h1
      exact ih (splitObservation_poses h h1) hr

theorem mergeDedup_poses (h : R.Poses Q K) {loss : Recon P → Nat → Nat → Nat} {a b : Nat} {x : Option Nat}
    (hr : R.mergeDedup loss a b = some (R', x)) : R'.Poses Q K := by
  unfold mergeDedup at hr
  split at hr
  · split at hr
    · cases hr
    · rename_i h1
      split at hr
      · cases hr
      · rename_i h2
        cases hr
        exact mergeLandmarks_poses (dedupLoop_poses h h1) h2
    · rename_i h1
      cases hr
      exact dedupLoop_poses h h1
  · cases hr

theorem optimizeThreeView_poses (h : R.Poses Q K) {ω : Oracle P} (hω : ω.KeepsThree Q K) {s : Settings}
    {v : Nat × Nat × Nat} {ls : List Nat} {c : Constraint P} (hr : optimizeThreeView ω s R v ls = some (some c)) :
    K c.first ∧ K c.second := by
  unfold optimizeThreeView at hr
  split at hr
  · cases hr
  · split at hr
    · simp only [Option.some.injEq, Option.map_eq_some_iff] at hr
      obtain ⟨p, hp, rfl⟩ := hr
      exact hω R v ls p h hp
    · cases hr

theorem optimizeAll_poses (h : R.Poses Q K) {ω : Oracle P} (hω : ω.KeepsThree Q K) {s : Settings} :
    ∀ {ts : List Triple} {cs : List (Constraint P)}, optimizeAll ω s R ts = some cs →
      ∀ c ∈ cs, K c.first ∧ K c.second := by
  intro ts
  induction ts with
  | nil => intro cs hr c hc; cases hr; cases hc
  | cons t ts ih =>
    intro cs hr c hc
    simp only [optimizeAll] at hr
    split at hr
    · rename_i h1 h2
      cases hr
      exact ih h2 c hc
    · rename_i h1 h2
      cases hr
      rcases List.mem_cons.1 hc with rfl | hc
      · exact optimizeThreeView_poses h hω h1
      · exact ih h2 c hc
    · cases hr

theorem generate_poses (h : R.Poses Q K) {ω : Oracle P} (hω : ω.KeepsThree Q K) {s : Settings} {v : Nat}
    {cs : List (Constraint P)} (hr : generateViewConstraints ω s R v = some cs) : ∀ c ∈ cs, K c.first ∧ K c.second := by
  simp only [generateViewConstraints] at hr
  split at hr
  · cases hr
  · split at hr
    · cases hr
    · rename_i h1
      cases hr
      intro c hc
      exact optimizeAll_poses h hω h1 c (List.mem_of_mem_take hc)

theorem insertConstraints_poses : ∀ {cs : List (Constraint P)} {R : Recon P}, R.Poses Q K →
    (∀ c ∈ cs, K c.first ∧ K c.second) → (insertConstraints cs R).Poses Q K := by
  intro cs
  induction cs with
  | nil => intro R h _; exact h
  | cons c cs ih =>
    intro R h hc
    refine ih ⟨h.views, ?_⟩ (fun x hx => hc x (List.mem_cons_of_mem _ hx))
    intro e he
    rcases FMap.mem_push he with he | rfl
    · exact h.constraints e he
    · exact hc c (by simp)

theorem record_poses (h : R.Poses Q K) {ω : Oracle P} (hω : ω.KeepsThree Q K) {s : Settings} {v : Nat} {b : Bool}
    (hr : R.recordViewConstraints ω s v = some (R', b)) : R'.Poses Q K := by
  unfold recordViewConstraints at hr
  split at hr
  · cases hr
  · rename_i cs h1
    split at hr
    · cases hr
      exact h
    · cases hr
      exact insertConstraints_poses h (generate_poses h hω h1)

theorem filterLandmark_poses (h : R.Poses Q K) {ω : Oracle P} {l : Nat} (hr : R.filterLandmark ω l = some R') :
    R'.Poses Q K := by
  unfold filterLandmark at hr
  split at hr
  · cases hr
  · split at hr
    · cases hr
    · cases hr
      exact h
    · split at hr
      · cases hr
        exact h
      · exact splitLandmark_poses h hr
    · split at hr
      · exact splitLandmark_poses h hr
      · exact splitAll_poses h hr

theorem filterLandmarks_poses {ω : Oracle P} : ∀ {ls : List Nat} {R : Recon P}, R.Poses Q K →
    filterLandmarks ω ls R = some R' → R'.Poses Q K := by
  intro ls
  induction ls with
  | nil => intro R h hr; cases hr; exact h
  | cons l ls ih =>
    intro R h hr
    simp only [filterLandmarks] at hr
    split at hr
    · cases hr
    · rename_i h1
      exact ih (filterLandmark_poses h h1) hr

theorem splitNonRobust_poses {ω : Oracle P} : ∀ {ls : List Nat} {R : Recon P}, R.Poses Q K →
    splitNonRobust ω ls R = some R' → R'.Poses Q K := by
  intro ls
  induction ls with
  | nil => intro R h hr; cases hr; exact h
  | cons l ls ih =>
    intro R h hr
    simp only [splitNonRobust] at hr
    split at hr
    · cases hr
    · split at hr
      · exact ih h hr
      · split at hr
        · cases hr
        · rename_i h1
          exact ih (splitLandmark_poses h h1) hr

theorem mapPoses_poses (h : R.Poses Q K) {f g : P → P} (hf : ∀ p, Q p → Q (f p)) (hg : ∀ p, K p → K (g p)) :
    (R.mapPoses f g).Poses Q K := by
  refine ⟨?_, ?_⟩
  · intro e he
    obtain ⟨x, hx, rfl⟩ := List.mem_map.1 he
    exact hf _ (h.views x hx)
  · intro e he
    obtain ⟨x, hx, rfl⟩ := List.mem_map.1 he
    exact ⟨hg _ (h.constraints x hx).1, hg _ (h.constraints x hx).2⟩

theorem constrainViews_poses (h : R.Poses Q K) {ω : Oracle P} (hω : ω.KeepsViews Q K) {edges : List (Nat × Nat × P)}
    (he : ∀ e ∈ edges, K e.2.2) : ∀ {vs : List Nat} {us : List (Nat × P)} {rs : List Nat},
    constrainViews ω R edges vs = some (us, rs) → ∀ u ∈ us, Q u.2 := by
  intro vs
  induction vs with
  | nil => intro us rs hr u hu; cases hr; cases hu
  | cons v vs ih =>
    intro us rs hr u hu
    simp only [constrainViews] at hr
    split at hr
    · rename_i p us' rs' h1 h2
      cases hr
      rcases List.mem_cons.1 hu with rfl | hu
      · simp only [constrainView] at h1
        split at h1
        · cases h1
        · split at h1
          · refine hω R v _ p h ?_ (Option.some.inj h1)
            intro e hm
            obtain ⟨x, hx, rfl⟩ := List.mem_map.1 hm
            exact he x (List.mem_filter.1 hx).1
          · cases h1
      · exact ih h2 u hu
    · rename_i h1 h2
      cases hr
      exact ih h2 u hu
    · cases hr

theorem flatten_poses [Mul P] [Inv P] (h : R.Poses Q K) (hm : ∀ a b : P, K a → K b → K (a * b))
    (hi : ∀ a : P, K a → K a⁻¹) : ∀ e ∈ R.flattenConstraints, K e.2.2 := by
  intro e he
  obtain ⟨c, hc, he⟩ := List.mem_flatMap.1 he
  obtain ⟨x, hx, rfl⟩ := List.mem_map.1 hc
  obtain ⟨h1, h2⟩ := h.constraints x hx
  simp only [edgeConstraints, List.mem_cons, List.not_mem_nil, or_false] at he
  rcases he with rfl | rfl | rfl | rfl | rfl | rfl
  · exact hi _ h2
  · exact hi _ h1
  · exact h1
  · exact hi _ (hm _ _ h2 (hi _ h1))
  · exact hm _ _ h2 (hi _ h1)
  · exact h2

end Recon

namespace Data

variable {d d' : Data P}

theorem Poses.get (h : d.Poses Q K) {r : Nat} {R : Recon P} (hR : d.recons.get r = some R) : R.Poses Q K :=
  h (r, R) (FMap.mem_of_get hR)

theorem Poses.of_eq (h : d.Poses Q K) (he : d'.recons = d.recons) : d'.Poses Q K := by
  unfold Poses
  rw [he]
  exact h

theorem Poses.modify (h : d.Poses Q K) {r : Nat} {R' : Recon P} (hR' : R'.Poses Q K)
    (he : d'.recons.map = d.recons.map.modify r (fun _ => R')) : d'.Poses Q K := by
  intro e hm
  rw [he] at hm
  rcases FMap.mem_modify hm with hm | ⟨_, _, rfl⟩
  · exact h e hm
  · exact hR'

theorem onRecon_poses (h : d.Poses Q K) {r : Nat} {f : Recon P → Option (Recon P)}
    (hf : ∀ R R', R.Poses Q K → f R = some R' → R'.Poses Q K) (hr : d.onRecon r f = some d') : d'.Poses Q K := by
  unfold onRecon at hr
  split at hr
  · cases hr
  · rename_i R hR
    split at hr
    · cases hr
    · rename_i R' h1
      cases hr
      exact h.modify (hf R R' (h.get hR) h1) rfl

theorem setFrameView_recons {f : Nat} {x : Option (Nat × Nat)} (hr : d.setFrameView f x = some d') :
    d'.recons = d.recons := by
  unfold setFrameView at hr
  split at hr
  · cases hr
  · cases hr
    rfl

theorem setFrameView_poses (h : d.Poses Q K) {f : Nat} {x : Option (Nat × Nat)} (hr : d.setFrameView f x = some d') :
    d'.Poses Q K := h.of_eq (setFrameView_recons hr)

theorem addFrame_poses (h : d.Poses Q K) {feed n : Nat} (hr : d.addFrame feed n = some d') : d'.Poses Q K := by
  unfold addFrame at hr
  split at hr
  · cases hr
  · cases hr
    exact h

theorem addView_poses (h : d.Poses Q K) {r frame : Nat} {pose : P} (hp : Q pose) {ex : Nat → Option (List Nat)}
    (hr : d.addView r frame pose ex = some d') : d'.Poses Q K := by
  unfold addView at hr
  split at hr
  · cases hr
  · split at hr
    · cases hr
    · rename_i h1
      split at hr
      · cases hr
      · exact onRecon_poses (setFrameView_poses h h1) (fun R R' hR hr => Recon.addView_poses hR hp hr) hr

theorem addReconstruction_poses (h : d.Poses Q K) {c f s : Nat} {idp p q : P} (hi : Q idp) (hp : Q p) (hq : Q q)
    (kp : K p) (kq : K q) {cm : List (Nat × Nat × Nat)} {m1 m2 : List (Nat × Nat)}
    (hr : d.addReconstruction c f s idp p q cm m1 m2 = some d') : d'.Poses Q K := by
  simp only [addReconstruction] at hr
  split at hr
  · cases hr
  · rename_i h1
    have g0 : ({ d with recons := d.recons.insert Recon.empty } : Data P).Poses Q K := by
      intro e he
      rcases FMap.mem_push he with he | rfl
      · exact h e he
      · refine ⟨?_, ?_⟩ <;> (intro e he; cases he)
    have g1 := addView_poses g0 hi h1
    split at hr
    · cases hr
    · split at hr
      · cases hr
      · split at hr
        · cases hr
        · rename_i h2
          have g2 := addView_poses g1 hp h2
          split at hr
          · cases hr
          · split at hr
            · cases hr
            · split at hr
              · cases hr
              · rename_i h3
                have g3 := addView_poses g2 hq h3
                refine onRecon_poses g3 ?_ hr
                intro R R' hR hr
                cases hr
                refine ⟨hR.views, ?_⟩
                intro e he
                rcases FMap.mem_push he with he | rfl
                · exact hR.constraints e he
                · exact ⟨kp, kq⟩

theorem removeView_poses (h : d.Poses Q K) {r v : Nat} (hr : d.removeView r v = some d') : d'.Poses Q K := by
  unfold removeView at hr
  split at hr
  · cases hr
  · split at hr
    · cases hr
    · rename_i h1
      exact onRecon_poses (setFrameView_poses h h1) (fun R R' hR hr => Recon.removeView_poses hR hr) hr

theorem clearFrames_recons : ∀ {Vs : List (View P)} {d : Data P}, clearFrames Vs d = some d' → d'.recons = d.recons := by
  intro Vs
  induction Vs with
  | nil => intro d hr; cases hr; rfl
  | cons V Vs ih =>
    intro d hr
    simp only [clearFrames] at hr
    split at hr
    · cases hr
    · rename_i h1
      rw [ih hr, setFrameView_recons h1]

theorem removeReconstruction_poses (h : d.Poses Q K) {r : Nat} (hr : d.removeReconstruction r = some d') :
    d'.Poses Q K := by
  unfold removeReconstruction at hr
  split at hr
  · cases hr
  · split at hr
    · cases hr
    · rename_i d1 h1
      cases hr
      intro e he
      have := FMap.mem_erase he
      rw [clearFrames_recons h1] at this
      exact h e this

theorem updatePoses_poses {r : Nat} : ∀ {us : List (Nat × P)} {d : Data P}, d.Poses Q K → (∀ u ∈ us, Q u.2) →
    updatePoses r us d = some d' → d'.Poses Q K := by
  intro us
  induction us with
  | nil => intro d h _ hr; cases hr; exact h
  | cons u us ih =>
    intro d h hu hr
    obtain ⟨v, p⟩ := u
    simp only [updatePoses] at hr
    split at hr
    · cases hr
    · rename_i h1
      refine ih (onRecon_poses h ?_ h1) (fun x hx => hu x (List.mem_cons_of_mem _ hx)) hr
      intro R R' hR hr
      split at hr
      · cases hr
      · cases hr
        refine ⟨?_, hR.constraints⟩
        intro e he
        rcases FMap.mem_modify he with he | ⟨V, _, rfl⟩
        · exact hR.views e he
        · exact hu (v, p) (by simp)

theorem removeViews_poses {r : Nat} : ∀ {vs : List Nat} {d : Data P}, d.Poses Q K → removeViews r vs d = some d' →
    d'.Poses Q K := by
  intro vs
  induction vs with
  | nil => intro d h hr; cases hr; exact h
  | cons v vs ih =>
    intro d h hr
    simp only [removeViews] at hr
    split at hr
    · cases hr
    · rename_i h1
      exact ih (removeView_poses h h1) hr

theorem mergeDedup_poses (h : d.Poses Q K) {loss : Recon P → Nat → Nat → Nat} {r a b : Nat} {x : Option Nat}
    (hr : d.mergeDedup loss r a b = some (d', x)) : d'.Poses Q K := by
  unfold mergeDedup at hr
  split at hr
  · cases hr
  · rename_i hR
    split at hr
    · cases hr
    · rename_i h1
      cases hr
      exact h.modify (Recon.mergeDedup_poses (h.get hR) h1) rfl

theorem record_poses (h : d.Poses Q K) {ω : Oracle P} (hω : ω.KeepsThree Q K) {s : Settings} {r v : Nat} {b : Bool}
    (hr : d.recordViewConstraints ω s r v = some (d', b)) : d'.Poses Q K := by
  unfold recordViewConstraints at hr
  split at hr
  · cases hr
  · rename_i hR
    split at hr
    · cases hr
    · rename_i h1
      cases hr
      exact h.modify (Recon.record_poses (h.get hR) hω h1) rfl

theorem incorporateFrame_poses (h : d.Poses Q K) {ω : Oracle P} (hω : ω.KeepsThree Q K) {s : Settings} {r frame : Nat}
    {pose : P} (hp : Q pose) {ex : Nat → Option (List Nat)} {x : Option Nat}
    (hr : d.incorporateFrame ω s r frame pose ex = some (d', x)) : d'.Poses Q K := by
  simp only [incorporateFrame] at hr
  split at hr
  · cases hr
  · split at hr
    · cases hr
    · rename_i h1
      have g1 := addView_poses h hp h1
      split at hr
      · cases hr
      · rename_i h2
        cases hr
        exact record_poses g1 hω h2
      · rename_i h2
        split at hr
        · cases hr
        · rename_i h3
          cases hr
          exact removeView_poses (record_poses g1 hω h2) h3

theorem incorporateFeatures_poses {dv : Nat} {lms : List Nat} : ∀ {fs : List Nat} {R R' : Recon P} {m m' : FMap Nat},
    R.Poses Q K → incorporateFeatures dv lms fs R m = some (R', m') → R'.Poses Q K := by
  intro fs
  induction fs with
  | nil => intro R R' m m' h hr; cases hr; exact h
  | cons f fs ih =>
    intro R R' m m' h hr
    simp only [incorporateFeatures] at hr
    split at hr
    · cases hr
    · split at hr
      · split at hr
        · cases hr
        · rename_i h1
          obtain ⟨R1, h1, h2⟩ := Option.bind_eq_some_iff.1 h1
          exact ih (Recon.pushOwner_poses (Recon.observe_poses h h1) h2) hr
      · split at hr
        · cases hr
        · rename_i h1
          refine ih (Recon.pushOwner_poses ?_ h1) hr
          exact h.of_eq rfl rfl

theorem incorporateView_poses (h : d.Poses Q K) {tr : P → P} (ht : ∀ p, Q p → Q (tr p)) {src dst sv dv : Nat}
    {m m' : FMap Nat} (hr : incorporateView tr src dst sv d m = some (d', m', dv)) : d'.Poses Q K := by
  simp only [incorporateView] at hr
  split at hr
  · rename_i V D hV hD
    split at hr
    · cases hr
    · rename_i h1
      split at hr
      · cases hr
      · split at hr
        · cases hr
        · rename_i h2
          cases hr
          obtain ⟨S, hS, hV⟩ := Option.bind_eq_some_iff.1 hV
          have hq : Q (tr V.pose) := ht _ ((h.get hS).views _ (FMap.mem_of_get hV))
          exact (setFrameView_poses h h1).modify (incorporateFeatures_poses
            (R := { D with views := D.views.insert ⟨V.frame, tr V.pose, []⟩ }) ((h.get hD).insert hq) h2) rfl
  · cases hr

theorem incorporateViews_poses {tr : P → P} (ht : ∀ p, Q p → Q (tr p)) {src dst : Nat} :
    ∀ {svs : List Nat} {d : Data P} {m m' : FMap Nat} {dvs : List Nat}, d.Poses Q K →
      incorporateViews tr src dst svs d m = some (d', m', dvs) → d'.Poses Q K := by
  intro svs
  induction svs with
  | nil => intro d m m' dvs h hr; cases hr; exact h
  | cons v vs ih =>
    intro d m m' dvs h hr
    simp only [incorporateViews] at hr
    split at hr
    · cases hr
    · rename_i h1
      split at hr
      · cases hr
      · rename_i h2
        cases hr
        exact ih (incorporateView_poses h ht h1) h2

theorem constrainNew_poses {ω : Nat → Oracle P} (hω : ∀ i, (ω i).KeepsThree Q K) {s : Settings} {dst : Nat} :
    ∀ {vs : List Nat} {d : Data P}, d.Poses Q K → constrainNew ω s dst vs d = some d' → d'.Poses Q K := by
  intro vs
  induction vs with
  | nil => intro d h hr; cases hr; exact h
  | cons v vs ih =>
    intro d h hr
    simp only [constrainNew] at hr
    split at hr
    · cases hr
    · rename_i h1
      exact ih (record_poses h (hω v) h1) hr
    · rename_i h1
      split at hr
      · cases hr
      · rename_i h2
        exact ih (removeView_poses (record_poses h (hω v) h1) h2) hr

theorem incorporateReconstruction_poses (h : d.Poses Q K) {ω : Nat → Oracle P} (hω : ∀ i, (ω i).KeepsThree Q K)
    {s : Settings} {tr : P → P} (ht : ∀ p, Q p → Q (tr p)) {src dst : Nat} {m : FMap Nat}
    (hr : d.incorporateReconstruction ω s tr src dst m = some d') : d'.Poses Q K := by
  unfold incorporateReconstruction at hr
  split at hr
  · cases hr
  · split at hr
    · cases hr
    · rename_i h1
      split at hr
      · cases hr
      · rename_i h2
        cases hr
        have := constrainNew_poses hω (incorporateViews_poses ht h h1) h2
        exact fun e he => this e (FMap.mem_erase he)

theorem tryMerge_poses (h : d.Poses Q K) {ω : Oracle P} (hω : ω.KeepsThree Q K) {ω' : Nat → Oracle P}
    (hω' : ∀ i, (ω' i).KeepsThree Q K) {s : Settings} {tr : P → P} (ht : ∀ p, Q p → Q (tr p)) {src sv dst : Nat}
    {pose : P} (hp : Q pose) {ms : FMap (List Nat)} {b : Bool}
    (hr : d.tryMerge ω ω' s tr src sv dst pose ms = some (d', b)) : d'.Poses Q K := by
  simp only [tryMerge] at hr
  split at hr
  · split at hr
    · cases hr
    · rename_i h1
      have g1 := addView_poses h hp h1
      split at hr
      · cases hr
      · rename_i h2
        have g2 := record_poses g1 hω h2
        split at hr
        · cases hr
        · rename_i h3
          split at hr
          · cases hr
          · rename_i h4
            cases hr
            exact setFrameView_poses (removeView_poses g2 h3) h4
      · rename_i h2
        have g2 := record_poses g1 hω h2
        split at hr
        · cases hr
        · split at hr
          · cases hr
          · rename_i h3
            have g3 := onRecon_poses g2 (fun R R' hR hr => by
              cases hr
              exact ⟨fun e he => hR.views e (FMap.mem_erase he), hR.constraints⟩) h3
            split at hr
            · cases hr
            · rename_i h4
              cases hr
              exact incorporateReconstruction_poses g3 hω' ht h4
  · cases hr

theorem filterObservations_poses (h : d.Poses Q K) {ω : Oracle P} {s : Settings} {r : Nat} {b : Bool}
    (hr : d.filterObservations ω s r = some (d', b)) : d'.Poses Q K := by
  simp only [filterObservations] at hr
  split at hr
  · cases hr
  · rename_i hR
    split at hr
    · cases hr
    · rename_i R' h1
      have g1 : ({ d with recons := d.recons.modify r (fun _ => R') } : Data P).Poses Q K :=
        h.modify (Recon.filterLandmarks_poses (h.get hR) h1) rfl
      split at hr
      · split at hr
        · cases hr
        · rename_i h2
          cases hr
          exact removeReconstruction_poses g1 h2
      · cases hr
        exact g1

theorem filterLandmarks_poses (h : d.Poses Q K) {ω : Oracle P} {r : Nat} (hr : d.filterLandmarks ω r = some d') :
    d'.Poses Q K :=
  onRecon_poses h (fun _ _ hR hr => Recon.splitNonRobust_poses hR hr) hr

theorem applyLoop_poses {ω : Nat → Oracle P} (hω : ∀ i, (ω i).KeepsViews Q K) {r : Nat} {edges : List (Nat × Nat × P)}
    (he : ∀ e ∈ edges, K e.2.2) : ∀ {n : Nat} {d : Data P} {b : Bool}, d.Poses Q K →
    applyLoop ω r edges n d = some (d', b) → d'.Poses Q K := by
  intro n
  induction n with
  | zero => intro d b h hr; cases hr; exact h
  | succ n ih =>
    intro d b h hr
    simp only [applyLoop] at hr
    split at hr
    · cases hr
    · rename_i hR
      split at hr
      · cases hr
      · rename_i us rs h1
        split at hr
        · split at hr
          · cases hr
          · rename_i h2
            unfold applyBundleAdjust at h2
            split at h2
            · cases h2
            · rename_i h3
              exact ih (removeViews_poses (updatePoses_poses h
                (Recon.constrainViews_poses (h.get hR) (hω n) he h1) h3) h2) hr
        · split at hr
          · cases hr
          · rename_i h2
            cases hr
            exact removeReconstruction_poses h h2

theorem applyConstraints_poses [Mul P] [Inv P] (h : d.Poses Q K) (hm : ∀ a b : P, K a → K b → K (a * b))
    (hi : ∀ a : P, K a → K a⁻¹) {ω : Nat → Oracle P} (hω : ∀ i, (ω i).KeepsViews Q K) {s : Settings} {r : Nat} {b : Bool}
    (hr : d.applyConstraints ω s r = some (d', b)) : d'.Poses Q K := by
  unfold applyConstraints at hr
  split at hr
  · cases hr
  · rename_i hR
    exact applyLoop_poses hω (Recon.flatten_poses (h.get hR) hm hi) h hr

theorem optimizeLoop_poses [Mul P] [Inv P] (hm : ∀ a b : P, K a → K b → K (a * b)) (hi : ∀ a : P, K a → K a⁻¹)
    {ω : Nat → Nat → Oracle P} (hω : ∀ i j, (ω i j).KeepsViews Q K) {ω' : Nat → Oracle P} {s : Settings} {r : Nat} :
    ∀ {n : Nat} {d : Data P} {b : Bool}, d.Poses Q K → optimizeLoop ω ω' s r n d = some (d', b) → d'.Poses Q K := by
  intro n
  induction n with
  | zero => intro d b h hr; cases hr; exact h
  | succ n ih =>
    intro d b h hr
    simp only [optimizeLoop] at hr
    split at hr
    · cases hr
    · rename_i h1
      cases hr
      exact applyConstraints_poses h hm hi (hω n) h1
    · rename_i h1
      have g1 := applyConstraints_poses h hm hi (hω n) h1
      split at hr
      · cases hr
      · rename_i h2
        cases hr
        exact filterObservations_poses g1 h2
      · rename_i h2
        exact ih (filterObservations_poses g1 h2) hr

theorem optimizeReconstruction_poses [Mul P] [Inv P] (h : d.Poses Q K) (hm : ∀ a b : P, K a → K b → K (a * b))
    (hi : ∀ a : P, K a → K a⁻¹) {ω : Nat → Nat → Oracle P} (hω : ∀ i j, (ω i j).KeepsViews Q K) {ω' : Nat → Oracle P}
    {s : Settings} {r : Nat} {b : Bool} (hr : d.optimizeReconstruction ω ω' s r = some (d', b)) : d'.Poses Q K :=
  optimizeLoop_poses hm hi hω h hr

theorem regenerateLoop_poses {ω : Nat → Oracle P} (hω : ∀ i, (ω i).KeepsThree Q K) {s : Settings} {r : Nat} :
    ∀ {vs : List Nat} {d : Data P}, d.Poses Q K → regenerateLoop ω s r vs d = some d' → d'.Poses Q K := by
  intro vs
  induction vs with
  | nil => intro d h hr; cases hr; exact h
  | cons v vs ih =>
    intro d h hr
    simp only [regenerateLoop] at hr
    split at hr
    · cases hr
    · rename_i h1
      exact ih (record_poses h (hω v) h1) hr

theorem regenerateConstraints_poses (h : d.Poses Q K) {ω : Nat → Oracle P} (hω : ∀ i, (ω i).KeepsThree Q K)
    {s : Settings} {r : Nat} (hr : d.regenerateConstraints ω s r = some d') : d'.Poses Q K := by
  simp only [regenerateConstraints] at hr
  split at hr
  · cases hr
  · rename_i R hR
    refine regenerateLoop_poses hω (h.modify (R' := { R with constraints := R.constraints.clear }) ?_ rfl) hr
    exact ⟨(h.get hR).views, fun e he => by cases he⟩

end Data

/-! ## The public interface -/

variable {S : Type}

/-- The answers used while a frame is placed keep the property. -/
structure TopOracle.Keeps (Q K : P → Prop) (o : TopOracle P) : Prop where
  judge : ∀ R frame ms x, R.Poses Q K → o.judge R frame ms = some x → Q x.1
  record : o.record.KeepsThree Q K
  merge : ∀ i, (o.merge i).KeepsThree Q K
  tr : ∀ a b p, Q a → Q b → Q p → Q (o.tr a b p)
  opt : ∀ i j, (o.opt i j).KeepsViews Q K

/-- The answers used for a frame keep the property. -/
structure FrameOracle.Keeps (Q K : P → Prop) (o : FrameOracle P S) : Prop where
  first : ∀ i, (o.first i).Keeps Q K
  second : ∀ i, (o.second i).Keeps Q K
  idp : Q o.idp
  consensus : ∀ d a b ms x, (o.start d).consensus a b ms = some x → Q x.1
  rescale : ∀ d p k, Q p → Q ((o.start d).rescale p k)
  optimise : ∀ d c f s ps ms, Q ps.1 → Q ps.2 →
    Q ((o.start d).optimise c f s ps ms).1 ∧ Q ((o.start d).optimise c f s ps ms).2

/-- The answers used in a call keep the property. -/
def Call.Keeps (Q K : P → Prop) : Call P S → Prop
  | .addFeed => True
  | .addFrame o _ _ => o.Keeps Q K
  | .incorporateReconstruction ω tr _ _ _ => (∀ i, (ω i).KeepsThree Q K) ∧ ∀ p, Q p → Q (tr p)
  | .normalize f g _ => (∀ p, Q p → Q (f p)) ∧ ∀ p, K p → K (g p)
  | .optimize ω _ _ => ∀ i j, (ω i j).KeepsViews Q K
  | .applyConstraints ω _ => ∀ i, (ω i).KeepsViews Q K
  | .regenerate ω ω' _ _ => (∀ i, (ω i).KeepsThree Q K) ∧ ∀ i j, (ω' i j).KeepsViews Q K
  | .filterObservations _ _ => True
  | .filterLandmarks _ _ => True
  | .mergeDedup _ _ _ _ => True

theorem registerLoop_from {σ α : Type} {attempt : Nat → Nat → σ → σ × Option α} {n : Nat} :
    ∀ {fuel start stop : Nat} {st st' : σ} {rs : List (Nat × Nat)} {a : α},
      registerLoop attempt n fuel start stop st = some (rs, st', some a) →
      ∃ i j st₀ st₁, attempt i j st₀ = (st₁, some a) := by
  intro fuel
  induction fuel with
  | zero => intro start stop st st' rs a h; cases h
  | succ fuel ih =>
    intro start stop st st' rs a h
    simp only [registerLoop] at h
    split at h
    · rename_i h1
      cases h
      exact ⟨_, _, _, _, h1⟩
    · split at h
      · cases h
      · split at h
        · cases h
        · rename_i h1
          cases h
          exact ih h1

section top

variable {d d' : Data P}

theorem registerTop_poses {o : TopOracle P} (ho : o.Keeps Q K) {s : TopSettings} (h : d.Poses Q K) {r frame : Nat}
    {views : List Nat} {pose : P} {ms : FMap (List Nat)}
    (hr : registerTop o s d r frame views = some (some (pose, ms))) : Q pose := by
  unfold registerTop at hr
  split at hr
  · rename_i R F hR hF
    split at hr
    · cases hr
    · cases hr
    · cases hr
    · rename_i h1
      cases hr
      obtain ⟨i, j, st, st', ha⟩ := registerLoop_from h1
      simp only [registerSubset] at ha
      split at ha
      · cases ha
      · split at ha
        · cases ha
        · rename_i h2
          split at ha
          · cases ha
          · cases ha
            exact ho.judge R frame _ _ (h.get hR) h2
  · cases hr

theorem mergeTop_poses {o : TopOracle P} (ho : o.Keeps Q K) {s : TopSettings} (h : d.Poses Q K) {src sv dst : Nat}
    {views : List Nat} {b : Bool} (hr : mergeTop o s d src sv dst views = some (d', b)) : d'.Poses Q K := by
  unfold mergeTop at hr
  split at hr
  · cases hr
  · rename_i V hV
    split at hr
    · cases hr
    · cases hr
      exact h
    · rename_i h1
      have hp := registerTop_poses ho h h1
      obtain ⟨R, hR, hV⟩ := Option.bind_eq_some_iff.1 hV
      have hq := (h.get hR).views _ (FMap.mem_of_get hV)
      exact Data.tryMerge_poses h ho.record ho.merge (fun p h => ho.tr _ _ _ hq hp h) hp hr

variable [Mul P] [Inv P] (hm : ∀ a b : P, K a → K b → K (a * b)) (hi : ∀ a : P, K a → K a⁻¹)

include hm hi in
theorem optimizeTop_poses {o : TopOracle P} (ho : o.Keeps Q K) {s : TopSettings} (h : d.Poses Q K) {r : Nat}
    (hr : optimizeTop o s d r = some d') : d'.Poses Q K := by
  obtain ⟨x, hx, rfl⟩ := Option.map_eq_some_iff.1 hr
  exact Data.optimizeReconstruction_poses (b := x.2) h hm hi ho.opt hx

include hm hi in
theorem localizeMerge_poses {o : TopOracle P} (ho : o.Keeps Q K) {s : TopSettings} (h : d.Poses Q K) {src sv dst : Nat}
    {views : List Nat} (hr : localizeMerge o s d src sv dst views = some d') : d'.Poses Q K := by
  unfold localizeMerge at hr
  split at hr
  · cases hr
    exact h
  · split at hr
    · cases hr
    · split at hr
      · split at hr
        · cases hr
        · split at hr
          · split at hr
            · cases hr
            · rename_i h1
              exact optimizeTop_poses hm hi ho (mergeTop_poses ho h h1) hr
            · rename_i h1
              cases hr
              exact mergeTop_poses ho h h1
          · cases hr
            exact h
      · cases hr
        exact h

include hm hi in
theorem localizeIncorporate_poses {o : TopOracle P} (ho : o.Keeps Q K) {s : TopSettings} (h : d.Poses Q K)
    {frame dst : Nat} {views : List Nat} (hr : localizeIncorporate o s d frame dst views = some d') : d'.Poses Q K := by
  have key : ∀ {d1 : Data P} {x : Option Nat}, incorporateTop o s d dst frame views = some (d1, x) → d1.Poses Q K := by
    intro d1 x h1
    unfold incorporateTop at h1
    split at h1
    · cases h1
    · cases h1
      exact h
    · rename_i h2
      exact Data.incorporateFrame_poses h ho.record (registerTop_poses ho h h2) h1
  unfold localizeIncorporate at hr
  split at hr
  · cases hr
  · rename_i h1
    exact optimizeTop_poses hm hi ho (key h1) hr
  · rename_i h1
    cases hr
    exact key h1

include hm hi in
theorem localizeLoop_poses {ω : Nat → TopOracle P} (hω : ∀ i, (ω i).Keeps Q K) {s : TopSettings} {frame : Nat} :
    ∀ {es : List (Nat × List Nat)} {d : Data P}, d.Poses Q K → localizeLoop ω s frame es d = some d' → d'.Poses Q K := by
  intro es
  induction es with
  | nil => intro d h hr; cases hr; exact h
  | cons e es ih =>
    intro d h hr
    obtain ⟨dst, views⟩ := e
    simp only [localizeLoop] at hr
    split at hr
    · cases hr
    · split at hr
      · split at hr
        · cases hr
        · rename_i h1
          exact ih (localizeMerge_poses hm hi (hω _) h h1) hr
      · split at hr
        · cases hr
        · rename_i h1
          exact ih (localizeIncorporate_poses hm hi (hω _) h h1) hr

include hm hi in
theorem foundLoop_poses {ω : Nat → TopOracle P} (hω : ∀ i, (ω i).Keeps Q K) {similar : Data P → Nat → List Nat}
    {s : TopSettings} {r : Nat} : ∀ {fs : List Nat} {d : Data P}, d.Poses Q K →
    foundLoop ω similar s r fs d = some d' → d'.Poses Q K := by
  intro fs
  induction fs with
  | nil => intro d h hr; cases hr; exact h
  | cons f fs ih =>
    intro d h hr
    simp only [foundLoop] at hr
    split at hr
    · cases hr
    · split at hr
      · exact ih h hr
      · split at hr
        · cases hr
        · rename_i h1
          have g1 := h
          unfold localizeFound at h1
          split at h1
          · cases h1
          · split at h1
            · cases h1
              split at hr
              · exact ih h hr
              · cases hr
                exact h
            · have g2 := localizeIncorporate_poses hm hi (hω _) h h1
              split at hr
              · exact ih g2 hr
              · cases hr
                exact g2

/-! ### The start -/

end top

section start

variable {d d' : Data P}

theorem twoViews_poses {o : StartOracle P S} (hc : ∀ a b ms x, o.consensus a b ms = some x → Q x.1) {s : StartSettings}
    {center nc : Nat} : ∀ {xs : List Nat} {ts : List (TwoView P)}, twoViews o s d center nc xs = some ts →
      ∀ t ∈ ts, Q t.pose := by
  intro xs
  induction xs with
  | nil => intro ts h t ht; cases h; cases ht
  | cons x xs ih =>
    intro ts h t ht
    simp only [twoViews] at h
    split at h
    · cases h
    · split at h
      · rename_i h1 h2
        cases h
        rcases List.mem_cons.1 ht with rfl | ht
        · simp only [initTwoView] at h1
          split at h1
          · cases h1
          · split at h1
            · cases h1
            · rename_i h3
              split at h1
              · cases h1
              · split at h1
                · cases h1
                · cases h1
                  exact hc _ _ _ _ h3
        · exact ih h2 t ht
      · rename_i h1 h2
        cases h
        exact ih h2 t ht
      · cases h

theorem combos_mem {α : Type} : ∀ {l : List α} {x : α × α}, x ∈ combos l → x.1 ∈ l ∧ x.2 ∈ l := by
  intro l
  induction l with
  | nil => intro x h; cases h
  | cons a l ih =>
    intro x h
    rcases List.mem_append.1 h with h | h
    · obtain ⟨b, hb, rfl⟩ := List.mem_map.1 h
      exact ⟨by simp, by simp [hb]⟩
    · exact ⟨List.mem_cons_of_mem _ (ih h).1, List.mem_cons_of_mem _ (ih h).2⟩

theorem filterLoop_poses {o : StartOracle P S}
    (ho : ∀ c f s ps ms, Q ps.1 → Q ps.2 → Q (o.optimise c f s ps ms).1 ∧ Q (o.optimise c f s ps ms).2)
    {s : StartSettings} {c f g minimum : Nat} {common : List Tri} : ∀ {n : Nat} {ps : P × P} {opti : List Tri}
      {x : (P × P) × List Tri}, Q ps.1 → Q ps.2 → filterLoop o s c f g minimum common n ps opti = some x →
      Q x.1.1 ∧ Q x.1.2 := by
  intro n
  induction n with
  | zero => intro ps opti x h1 h2 h; cases h; exact ⟨h1, h2⟩
  | succ n ih =>
    intro ps opti x h1 h2 h
    simp only [filterLoop] at h
    split at h
    · exact ih (ho _ _ _ _ _ h1 h2).1 (ho _ _ _ _ _ h1 h2).2 h
    · cases h

theorem tryPair_poses {o : StartOracle P S} (hr : ∀ p k, Q p → Q (o.rescale p k))
    (ho : ∀ c f s ps ms, Q ps.1 → Q ps.2 → Q (o.optimise c f s ps ms).1 ∧ Q (o.optimise c f s ps ms).2)
    {s : StartSettings} {c : Nat} {a b : TwoView P} (ha : Q a.pose) (hb : Q b.pose) {p q : P} {cm : List Tri}
    {m1 m2 : List (Nat × Nat)} (h : tryPair o s c a b = some (.found p q cm m1 m2)) : Q p ∧ Q q := by
  simp only [tryPair] at h
  split at h
  · cases h
  · split at h
    · cases h
    · split at h
      · cases h
      · split at h
        · cases h
        · rename_i h1
          have := filterLoop_poses ho ha (hr _ _ hb) h1
          split at h
          · simp only [finishPair] at h
            split at h
            · cases h
            · split at h
              · cases h
              · cases h
                exact ho _ _ _ _ _ this.1 this.2
          · cases h

theorem tryPairs_poses {o : StartOracle P S} (hr : ∀ p k, Q p → Q (o.rescale p k))
    (ho : ∀ c f s ps ms, Q ps.1 → Q ps.2 → Q (o.optimise c f s ps ms).1 ∧ Q (o.optimise c f s ps ms).2)
    {s : StartSettings} {c : Nat} : ∀ {xs : List (TwoView P × TwoView P)} {r : Start P},
      (∀ x ∈ xs, Q x.1.pose ∧ Q x.2.pose) → tryPairs o s c xs = some (some r) → Q r.firstPose ∧ Q r.secondPose := by
  intro xs
  induction xs with
  | nil => intro r _ h; cases h
  | cons x xs ih =>
    intro r hx h
    obtain ⟨a, b⟩ := x
    simp only [tryPairs] at h
    split at h
    · cases h
    · exact ih (fun y hy => hx y (List.mem_cons_of_mem _ hy)) h
    · cases h
    · rename_i h1
      cases h
      obtain ⟨h2, h3⟩ := hx (a, b) (by simp)
      exact tryPair_poses hr ho h2 h3 h1

theorem localizeStart_poses (hQK : ∀ p, Q p → K p) {o : FrameOracle P S} (ho : o.Keeps Q K) {s : TopSettings}
    (h : d.Poses Q K) {frame : Nat} {free : List Nat} (hr : localizeStart o s d frame free = some d') : d'.Poses Q K := by
  unfold localizeStart at hr
  split at hr
  · cases hr
  · split at hr
    · cases hr
      exact h
    · obtain ⟨x, hx, rfl⟩ := Option.map_eq_some_iff.1 hr
      unfold tryInit at hx
      split at hx
      · cases hx
      · cases hx
        exact h
      · rename_i r h1
        split at hx
        · cases hx
        · rename_i h2
          cases hx
          unfold initReconstruction at h1
          split at h1
          · cases h1
          · split at h1
            · cases h1
            · rename_i ts h3
              have ht := twoViews_poses (ho.consensus d) h3
              obtain ⟨hp, hq⟩ := tryPairs_poses (ho.rescale d) (ho.optimise d)
                (fun x hx => ⟨ht _ (combos_mem hx).1, ht _ (combos_mem hx).2⟩) h1
              exact Data.addReconstruction_poses h ho.idp hp hq (hQK _ hp) (hQK _ hq) h2

end start

section calls

variable {d d' : Data P} [Mul P] [Inv P] (hm : ∀ a b : P, K a → K b → K (a * b)) (hi : ∀ a : P, K a → K a⁻¹)

include hm hi in
theorem addFrameTop_poses (hQK : ∀ p, Q p → K p) {o : FrameOracle P S} (ho : o.Keeps Q K) {s : TopSettings}
    (h : d.Poses Q K) {feed n f : Nat} (hr : addFrameTop o s d feed n = some (d', f)) : d'.Poses Q K := by
  simp only [addFrameTop] at hr
  split at hr
  · cases hr
  · rename_i h1
    have g1 := Data.addFrame_poses h h1
    split at hr
    · cases hr
    · split at hr
      · cases hr
      · rename_i h2
        cases hr
        unfold tryLocalize at h2
        split at h2
        · cases h2
        · rename_i h3
          have g2 := localizeLoop_poses hm hi ho.first g1 h3
          split at h2
          · cases h2
          · rename_i h4
            have g3 := localizeStart_poses hQK ho g2 h4
            unfold localizeRest at h2
            split at h2
            · cases h2
            · split at h2
              · cases h2
                exact g3
              · exact foundLoop_poses hm hi ho.second g3 h2

include hm hi in
/-- Every call keeps a property of all poses that its numeric steps keep. -/
theorem call_poses (hQK : ∀ p, Q p → K p) {s : TopSettings} (h : d.Poses Q K) {c : Call P S} (hc : c.Keeps Q K)
    (hr : c.run s d = some d') : d'.Poses Q K := by
  cases c with
  | addFeed =>
    cases hr
    exact h
  | addFrame o feed n =>
    obtain ⟨x, hx, rfl⟩ := Option.map_eq_some_iff.1 hr
    exact addFrameTop_poses hm hi hQK (f := x.2) hc h hx
  | incorporateReconstruction ω tr src dst m => exact Data.incorporateReconstruction_poses h hc.1 hc.2 hr
  | normalize f g r =>
    refine Data.onRecon_poses h ?_ hr
    intro R R' hR hr
    split at hr
    · cases hr
    · cases hr
      exact Recon.mapPoses_poses hR hc.1 hc.2
  | optimize ω ω' r =>
    obtain ⟨x, hx, rfl⟩ := Option.map_eq_some_iff.1 hr
    exact Data.optimizeReconstruction_poses (b := x.2) h hm hi hc hx
  | applyConstraints ω r =>
    obtain ⟨x, hx, rfl⟩ := Option.map_eq_some_iff.1 hr
    exact Data.applyConstraints_poses (b := x.2) h hm hi hc hx
  | regenerate ω ω' ω'' r =>
    simp only [Call.run] at hr
    split at hr
    · cases hr
    · rename_i h1
      obtain ⟨x, hx, rfl⟩ := Option.map_eq_some_iff.1 hr
      exact Data.optimizeReconstruction_poses (b := x.2) (Data.regenerateConstraints_poses h hc.1 h1) hm hi hc.2 hx
  | filterObservations ω r =>
    obtain ⟨x, hx, rfl⟩ := Option.map_eq_some_iff.1 hr
    exact Data.filterObservations_poses (b := x.2) h hx
  | filterLandmarks ω r => exact Data.filterLandmarks_poses h hr
  | mergeDedup loss r a b =>
    obtain ⟨x, hx, rfl⟩ := Option.map_eq_some_iff.1 hr
    exact Data.mergeDedup_poses (x := x.2) h hx

end calls

end Verif.Sfm
