import Verif.Lemmas.FMap
import Verif.Model.SfmHistory

/-! Helper lemmas: keys are only added at the counter. -/

namespace Verif

/-- Counters only move up, and a key that resolves now resolved before or is at least the old
counter. -/
structure SlotMap.Grows {α : Type} (m m' : SlotMap α) : Prop where
  next : m.next ≤ m'.next
  live : ∀ k v', m'.get k = some v' → (∃ v, m.get k = some v) ∨ (m.next ≤ k ∧ k < m'.next)

namespace SlotMap
variable {α : Type}

theorem Grows.refl (m : SlotMap α) : m.Grows m := ⟨Nat.le_refl _, fun _ v h => Or.inl ⟨v, h⟩⟩

theorem Grows.trans {a b c : SlotMap α} (h : a.Grows b) (h' : b.Grows c) : a.Grows c := by
  refine ⟨Nat.le_trans h.next h'.next, ?_⟩
  intro k v hk
  rcases h'.live k v hk with ⟨w, hw⟩ | hge
  · rcases h.live k w hw with hl | ⟨h1, h2⟩
    · exact Or.inl hl
    · exact Or.inr ⟨h1, Nat.lt_of_lt_of_le h2 h'.next⟩
  · exact Or.inr ⟨Nat.le_trans h.next hge.1, hge.2⟩

theorem grows_insert (m : SlotMap α) (x : α) : m.Grows (m.insert x) := by
  refine ⟨Nat.le_succ _, ?_⟩
  intro k v hk
  replace hk : (m.map.push m.next x).get k = some v := hk
  rw [FMap.get_push] at hk
  cases h : m.get k with
  | some w => exact Or.inl ⟨w, rfl⟩
  | none =>
    have h' : m.map.get k = none := h
    rw [h'] at hk
    simp only [Option.none_or] at hk
    split at hk
    · right
      show m.next ≤ k ∧ k < m.next + 1
      omega
    · cases hk

theorem grows_erase (m : SlotMap α) (j : Nat) : m.Grows (m.erase j) := by
  refine ⟨Nat.le_refl _, ?_⟩
  intro k v hk
  rw [get_erase] at hk
  split at hk
  · cases hk
  · exact Or.inl ⟨v, hk⟩

theorem grows_modify (m : SlotMap α) (j : Nat) (f : α → α) : m.Grows (m.modify j f) := by
  refine ⟨Nat.le_refl _, ?_⟩
  intro k v hk
  rw [get_modify] at hk
  cases h : m.get k with
  | some w => exact Or.inl ⟨w, rfl⟩
  | none => rw [h] at hk; split at hk <;> cases hk

theorem grows_of_keys {m m' : SlotMap α} (hn : m.next ≤ m'.next)
    (hk : ∀ k, k ∈ m'.map.entries.map Prod.fst → k ∈ m.map.entries.map Prod.fst) : m.Grows m' := by
  refine ⟨hn, ?_⟩
  intro k v h
  left
  exact (FMap.mem_keys_iff m.map k).mp (hk k ((FMap.mem_keys_iff m'.map k).mpr ⟨v, h⟩))

end SlotMap

namespace Sfm
variable {P : Type}

structure Recon.Grows (R R' : Recon P) : Prop where
  views : R.views.Grows R'.views
  landmarks : R.landmarks.Grows R'.landmarks
  constraints : R.constraints.Grows R'.constraints

namespace Recon

theorem Grows.refl (R : Recon P) : R.Grows R :=
  ⟨SlotMap.Grows.refl _, SlotMap.Grows.refl _, SlotMap.Grows.refl _⟩

theorem Grows.trans {a b c : Recon P} (h : a.Grows b) (h' : b.Grows c) : a.Grows c :=
  ⟨h.views.trans h'.views, h.landmarks.trans h'.landmarks, h.constraints.trans h'.constraints⟩

theorem grows_views (R : Recon P) {vs : SlotMap (View P)} (h : R.views.Grows vs) :
    R.Grows { R with views := vs } := ⟨h, SlotMap.Grows.refl _, SlotMap.Grows.refl _⟩

theorem grows_landmarks (R : Recon P) {ls : SlotMap Landmark} (h : R.landmarks.Grows ls) :
    R.Grows { R with landmarks := ls } := ⟨SlotMap.Grows.refl _, h, SlotMap.Grows.refl _⟩

theorem grows_constraints (R : Recon P) {cs : SlotMap (Constraint P)} (h : R.constraints.Grows cs) :
    R.Grows { R with constraints := cs } := ⟨SlotMap.Grows.refl _, SlotMap.Grows.refl _, h⟩

theorem grows_setOwner {R R' : Recon P} {v f l : Nat} (h : R.setOwner v f l = some R') :
    R.Grows R' := by
  unfold setOwner at h
  split at h
  · cases h
  · split at h
    · cases h; exact grows_views R (SlotMap.grows_modify _ _ _)
    · cases h

theorem grows_mergeLoop (a : Nat) (es : List (Nat × Nat)) : ∀ {R R' : Recon P},
    mergeLoop a es R = some R' → R.Grows R' := by
  induction es with
  | nil => intro R R' h; cases h; exact Grows.refl _
  | cons e es ih =>
    obtain ⟨v, f⟩ := e
    intro R R' h
    unfold mergeLoop at h
    split at h
    · cases h
    · rename_i R1 h1
      split at h
      · cases h
      · split at h
        · exact ((grows_setOwner h1).trans (grows_landmarks R1 (SlotMap.grows_modify _ _ _))).trans
            (ih h)
        · cases h

theorem grows_merge {R R' : Recon P} {a b : Nat} (h : R.mergeLandmarks a b = some R') :
    R.Grows R' := by
  unfold mergeLandmarks at h
  split at h
  · cases h
  · exact (grows_landmarks R (SlotMap.grows_erase _ _)).trans (grows_mergeLoop _ _ h)

theorem grows_observe {R R' : Recon P} {l v f : Nat} (h : R.observe l v f = some R') :
    R.Grows R' := by
  unfold observe at h
  split at h
  · cases h
  · cases h; exact grows_landmarks R (SlotMap.grows_modify _ _ _)

theorem grows_pushOwner {R R' : Recon P} {v l : Nat} (h : R.pushOwner v l = some R') :
    R.Grows R' := by
  unfold pushOwner at h
  split at h
  · cases h
  · cases h; exact grows_views R (SlotMap.grows_modify _ _ _)

theorem grows_addLandmark (R : Recon P) (v f : Nat) : R.Grows (R.addLandmark v f) :=
  grows_landmarks R (SlotMap.grows_insert _ _)

theorem grows_addFeature {R R' : Recon P} {v f : Nat} {ex : Option (List Nat)}
    (h : R.addFeature v f ex = some R') : R.Grows R' := by
  unfold addFeature at h
  split at h
  · exact (grows_addLandmark R v f).trans (grows_pushOwner h)
  · split at h
    · cases h
    · rename_i h1; exact (grows_observe h1).trans (grows_pushOwner h)
  · split at h
    · cases h
    · rename_i h1
      split at h
      · cases h
      · rename_i h2; exact ((grows_merge h1).trans (grows_observe h2)).trans (grows_pushOwner h)
  · cases h

theorem grows_addFeatures (v : Nat) (ex : Nat → Option (List Nat)) (fs : List Nat) :
    ∀ {R R' : Recon P}, addFeatures v ex fs R = some R' → R.Grows R' := by
  induction fs with
  | nil => intro R R' h; cases h; exact Grows.refl _
  | cons f fs ih =>
    intro R R' h
    unfold addFeatures at h
    split at h
    · cases h
    · rename_i h1; exact (grows_addFeature h1).trans (ih h)

theorem grows_addView {R R' : Recon P} {frame n : Nat} {pose : P} {ex : Nat → Option (List Nat)}
    (h : R.addView frame pose n ex = some R') : R.Grows R' :=
  (grows_views R (SlotMap.grows_insert _ _)).trans (grows_addFeatures _ _ _ h)

theorem grows_removeObservations (v : Nat) (ls : List Nat) : ∀ {R R' : Recon P},
    removeObservations v ls R = some R' → R.Grows R' := by
  induction ls with
  | nil => intro R R' h; cases h; exact Grows.refl _
  | cons l ls ih =>
    intro R R' h
    unfold removeObservations at h
    split at h
    · cases h
    · split at h
      · cases h
      · split at h
        · exact (grows_landmarks R (SlotMap.grows_erase _ _)).trans (ih h)
        · exact (grows_landmarks R (SlotMap.grows_modify _ _ _)).trans (ih h)

theorem grows_retain {α : Type} (m : SlotMap α) (p : α → Bool) : m.Grows (m.retain p) := by
  refine SlotMap.grows_of_keys (Nat.le_refl _) ?_
  intro k hk
  obtain ⟨e, he, rfl⟩ := List.mem_map.mp hk
  exact List.mem_map.mpr ⟨e, (List.mem_filter.mp he).1, rfl⟩

theorem grows_removeView {R R' : Recon P} {v : Nat} (h : R.removeView v = some R') :
    R.Grows R' := by
  unfold removeView at h
  split at h
  · cases h
  · split at h
    · cases h
    · rename_i R1 h1
      cases h
      exact ((grows_views R (SlotMap.grows_modify _ _ _)).trans
        (grows_removeObservations _ _ h1)).trans
        ⟨SlotMap.grows_erase _ _, SlotMap.Grows.refl _, grows_retain R1.constraints (fun c => !c.mentions v)⟩

theorem grows_split {R R' : Recon P} {v f : Nat} {b : Bool}
    (h : R.splitObservation v f = some (R', b)) : R.Grows R' := by
  unfold splitObservation at h
  split at h
  · cases h
  · split at h
    · cases h
    · split at h
      · cases h
      · split at h
        · split at h
          · simp only at h
            split at h
            · cases h
            · rename_i R2 h2
              cases h
              exact ((grows_landmarks R (SlotMap.grows_modify _ _ _)).trans
                (grows_addLandmark _ _ _)).trans (grows_setOwner h2)
          · cases h
        · cases h; exact Grows.refl _

theorem grows_splitAll (es : List (Nat × Nat)) : ∀ {R R' : Recon P},
    splitAll es R = some R' → R.Grows R' := by
  induction es with
  | nil => intro R R' h; cases h; exact Grows.refl _
  | cons e es ih =>
    obtain ⟨v, f⟩ := e
    intro R R' h
    unfold splitAll at h
    split at h
    · cases h
    · rename_i h1; exact (grows_split h1).trans (ih h)

theorem grows_splitLandmark {R R' : Recon P} {order : List (Nat × Nat)}
    (h : R.splitLandmark order = some R') : R.Grows R' := by
  unfold splitLandmark at h
  split at h
  · cases h
  · exact grows_splitAll _ h

theorem grows_dedupLoop (loss : Recon P → Nat → Nat → Nat) (ds : List (Nat × Nat × Nat)) :
    ∀ {R R' : Recon P} {ok ok' : Bool}, dedupLoop loss ds R ok = some (R', ok') → R.Grows R' := by
  induction ds with
  | nil => intro R R' ok ok' h; cases h; exact Grows.refl _
  | cons e ds ih =>
    obtain ⟨v, f, g⟩ := e
    intro R R' ok ok' h
    unfold dedupLoop at h
    split at h
    · cases h
    · rename_i h1; exact (grows_split h1).trans (ih h)

theorem grows_mergeDedup {loss : Recon P → Nat → Nat → Nat} {R R' : Recon P} {a b : Nat}
    {x : Option Nat} (h : R.mergeDedup loss a b = some (R', x)) : R.Grows R' := by
  unfold mergeDedup at h
  split at h
  · split at h
    · cases h
    · rename_i h1
      split at h
      · cases h
      · rename_i h2
        cases h
        exact (grows_dedupLoop _ _ h1).trans (grows_merge h2)
    · rename_i h1
      cases h
      exact grows_dedupLoop _ _ h1
  · cases h

theorem grows_insertConstraints (cs : List (Constraint P)) : ∀ (R : Recon P),
    R.Grows (insertConstraints cs R) := by
  induction cs with
  | nil => intro R; exact Grows.refl _
  | cons c cs ih =>
    intro R
    exact (grows_constraints R (SlotMap.grows_insert _ _)).trans (ih _)

theorem grows_record {ω : Oracle P} {s : Settings} {R R' : Recon P} {v : Nat} {b : Bool}
    (h : R.recordViewConstraints ω s v = some (R', b)) : R.Grows R' := by
  unfold recordViewConstraints at h
  split at h
  · cases h
  · split at h
    · cases h; exact Grows.refl _
    · cases h; exact grows_insertConstraints _ _

theorem grows_filterLandmark {ω : Oracle P} {R R' : Recon P} {l : Nat}
    (h : R.filterLandmark ω l = some R') : R.Grows R' := by
  unfold filterLandmark at h
  split at h
  · cases h
  · split at h
    · cases h
    · cases h; exact Grows.refl _
    · split at h
      · cases h; exact Grows.refl _
      · exact grows_splitLandmark h
    · split at h
      · exact grows_splitLandmark h
      · exact grows_splitAll _ h

theorem grows_filterLandmarks (ω : Oracle P) (ls : List Nat) : ∀ {R R' : Recon P},
    filterLandmarks ω ls R = some R' → R.Grows R' := by
  induction ls with
  | nil => intro R R' h; cases h; exact Grows.refl _
  | cons l ls ih =>
    intro R R' h
    unfold filterLandmarks at h
    split at h
    · cases h
    · rename_i h1; exact (grows_filterLandmark h1).trans (ih h)

theorem grows_splitNonRobust (ω : Oracle P) (ls : List Nat) : ∀ {R R' : Recon P},
    splitNonRobust ω ls R = some R' → R.Grows R' := by
  induction ls with
  | nil => intro R R' h; cases h; exact Grows.refl _
  | cons l ls ih =>
    intro R R' h
    unfold splitNonRobust at h
    split at h
    · cases h
    · split at h
      · exact ih h
      · split at h
        · cases h
        · rename_i h1; exact (grows_splitLandmark h1).trans (ih h)

theorem grows_mapPoses (f g : P → P) (R : Recon P) : R.Grows (R.mapPoses f g) := by
  refine ⟨SlotMap.grows_of_keys (Nat.le_refl _) ?_, SlotMap.Grows.refl _,
    SlotMap.grows_of_keys (Nat.le_refl _) ?_⟩
  · intro k hk
    simpa [mapPoses] using hk
  · intro k hk
    simpa [mapPoses] using hk

end Recon

/-- The counters of all tables. -/
structure Data.Grows (d d' : Data P) : Prop where
  feeds : d.feeds.Grows d'.feeds
  frames : d.frames.Grows d'.frames
  recons : d.recons.Grows d'.recons
  inside : ∀ r R R', d.recons.get r = some R → d'.recons.get r = some R' → R.Grows R'
  /-- frames are never removed and keep everything but their view -/
  frameData : ∀ f F, d.frames.get f = some F → ∃ F', d'.frames.get f = some F' ∧
    F'.feed = F.feed ∧ F'.feedFrame = F.feedFrame ∧ F'.nfeat = F.nfeat
  /-- feeds are never removed and only get longer -/
  feedPrefix : ∀ k fs, d.feeds.get k = some fs → ∃ gs, d'.feeds.get k = some (fs ++ gs)

namespace Data

theorem Grows.refl (d : Data P) : d.Grows d := by
  refine ⟨SlotMap.Grows.refl _, SlotMap.Grows.refl _, SlotMap.Grows.refl _, ?_,
    fun _ F h => ⟨F, h, rfl, rfl, rfl⟩, fun _ _ h => ⟨[], by rw [List.append_nil]; exact h⟩⟩
  intro r R R' h h'
  rw [h] at h'
  cases h'
  exact Recon.Grows.refl _

/-- The keys of reconstructions in use were handed out. -/
def KeysOk (d : Data P) : Prop := ∀ r R, d.recons.get r = some R → r < d.recons.next

theorem Grows.keysOk {a b : Data P} (h : a.Grows b) (ha : a.KeysOk) : b.KeysOk := by
  intro r R hR
  rcases h.recons.live r R hR with ⟨Q, hQ⟩ | h'
  · exact Nat.lt_of_lt_of_le (ha r Q hQ) h.recons.next
  · exact h'.2

theorem Grows.trans {a b c : Data P} (ha : a.KeysOk) (h : a.Grows b) (h' : b.Grows c) :
    a.Grows c := by
  refine ⟨h.feeds.trans h'.feeds, h.frames.trans h'.frames, h.recons.trans h'.recons, ?_, ?_, ?_⟩
  · intro r R R' hR hR'
    rcases h'.recons.live r R' hR' with ⟨Q, hQ⟩ | hge
    · exact (h.inside r R Q hR hQ).trans (h'.inside r Q R' hQ hR')
    · have := ha r R hR
      have := h.recons.next
      omega
  · intro f F hF
    obtain ⟨F1, h1, e1, e2, e3⟩ := h.frameData f F hF
    obtain ⟨F2, h2, e4, e5, e6⟩ := h'.frameData f F1 h1
    exact ⟨F2, h2, e4.trans e1, e5.trans e2, e6.trans e3⟩
  · intro k fs hk
    obtain ⟨gs, h1⟩ := h.feedPrefix k fs hk
    obtain ⟨gs', h2⟩ := h'.feedPrefix k _ h1
    exact ⟨gs ++ gs', by rw [← List.append_assoc]; exact h2⟩

/-- Growth from a state whose keys were handed out. -/
def GrowsK (d d' : Data P) : Prop := d.KeysOk → d.Grows d'

theorem GrowsK.refl (d : Data P) : d.GrowsK d := fun _ => Grows.refl d

theorem GrowsK.trans {a b c : Data P} (h : a.GrowsK b) (h' : b.GrowsK c) : a.GrowsK c :=
  fun ha => (h ha).trans ha (h' ((h ha).keysOk ha))

theorem insert_get {α : Type} {m : SlotMap α} {k : Nat} {x : α} (h : m.get k = some x) (y : α) :
    (m.insert y).get k = some x := by
  show (m.map.push m.next y).get k = some x
  have h0 : m.map.get k = some x := h
  rw [FMap.get_push, h0]
  rfl

theorem grows_feeds (d : Data P) {fs : SlotMap (List Nat)} (h : d.feeds.Grows fs)
    (hp : ∀ k l, d.feeds.get k = some l → ∃ g, fs.get k = some (l ++ g)) :
    d.GrowsK { d with feeds := fs } := by
  intro _
  refine ⟨h, SlotMap.Grows.refl _, SlotMap.Grows.refl _, ?_,
    fun _ F h => ⟨F, h, rfl, rfl, rfl⟩, hp⟩
  intro r R R' h h'
  replace h' : d.recons.get r = some R' := h'
  rw [h] at h'
  cases h'
  exact Recon.Grows.refl _

theorem grows_frames (d : Data P) {fs : SlotMap Frame} (h : d.frames.Grows fs)
    (hp : ∀ f F, d.frames.get f = some F → ∃ F', fs.get f = some F' ∧
      F'.feed = F.feed ∧ F'.feedFrame = F.feedFrame ∧ F'.nfeat = F.nfeat) :
    d.GrowsK { d with frames := fs } := by
  intro _
  refine ⟨SlotMap.Grows.refl _, h, SlotMap.Grows.refl _, ?_, hp,
    fun _ _ h => ⟨[], by rw [List.append_nil]; exact h⟩⟩
  intro r R R' h h'
  replace h' : d.recons.get r = some R' := h'
  rw [h] at h'
  cases h'
  exact Recon.Grows.refl _

theorem grows_insertRecon (d : Data P) (Q : Recon P) :
    d.GrowsK { d with recons := d.recons.insert Q } := by
  intro hd
  refine ⟨SlotMap.Grows.refl _, SlotMap.Grows.refl _, SlotMap.grows_insert _ _, ?_,
    fun _ F h => ⟨F, h, rfl, rfl, rfl⟩, fun _ _ h => ⟨[], by rw [List.append_nil]; exact h⟩⟩
  intro r R R' h h'
  replace h' : (d.recons.map.push d.recons.next Q).get r = some R' := h'
  have h0 : d.recons.map.get r = some R := h
  rw [FMap.get_push, h0] at h'
  cases h'
  exact Recon.Grows.refl _

theorem grows_eraseRecon (d : Data P) (q : Nat) :
    d.GrowsK { d with recons := d.recons.erase q } := by
  intro hd
  refine ⟨SlotMap.Grows.refl _, SlotMap.Grows.refl _, SlotMap.grows_erase _ _, ?_,
    fun _ F h => ⟨F, h, rfl, rfl, rfl⟩, fun _ _ h => ⟨[], by rw [List.append_nil]; exact h⟩⟩
  intro r R R' h h'
  replace h' : (d.recons.erase q).get r = some R' := h'
  rw [SlotMap.get_erase] at h'
  split at h'
  · cases h'
  · rw [h] at h'
    cases h'
    exact Recon.Grows.refl _

/-- Replacing one reconstruction by a grown one. -/
theorem grows_replace (d : Data P) {r : Nat} {R R' : Recon P} (hR : d.recons.get r = some R)
    (h : R.Grows R') : d.GrowsK { d with recons := d.recons.modify r (fun _ => R') } := by
  intro _
  refine ⟨SlotMap.Grows.refl _, SlotMap.Grows.refl _, SlotMap.grows_modify _ _ _, ?_,
    fun _ F h => ⟨F, h, rfl, rfl, rfl⟩, fun _ _ h => ⟨[], by rw [List.append_nil]; exact h⟩⟩
  intro q Q Q' hQ hQ'
  replace hQ' : (d.recons.modify r (fun _ => R')).get q = some Q' := hQ'
  rw [SlotMap.get_modify] at hQ'
  by_cases hq : q = r
  · subst hq
    rw [hR] at hQ
    cases hQ
    simp [hR] at hQ'
    subst hQ'
    exact h
  · simp only [hq, if_false] at hQ'
    rw [hQ] at hQ'
    cases hQ'
    exact Recon.Grows.refl _

theorem grows_onRecon {d d' : Data P} {r : Nat} {f : Recon P → Option (Recon P)}
    (h : d.onRecon r f = some d') (hf : ∀ R R', f R = some R' → R.Grows R') : d.GrowsK d' := by
  unfold onRecon at h
  split at h
  · cases h
  · rename_i R hR
    split at h
    · cases h
    · rename_i R' h1
      cases h
      exact grows_replace d hR (hf R R' h1)

theorem grows_setFrameView {d d' : Data P} {f : Nat} {x : Option (Nat × Nat)}
    (h : d.setFrameView f x = some d') : d.GrowsK d' := by
  unfold setFrameView at h
  split at h
  · cases h
  · cases h
    refine grows_frames d (SlotMap.grows_modify _ _ _) ?_
    intro g F hF
    rw [SlotMap.get_modify]
    by_cases hg : g = f
    · subst hg
      exact ⟨{ F with view := x }, by simp [hF], rfl, rfl, rfl⟩
    · exact ⟨F, by simp [hg, hF], rfl, rfl, rfl⟩

theorem grows_addFrame {d d' : Data P} {feed n : Nat} (h : d.addFrame feed n = some d') :
    d.GrowsK d' := by
  unfold addFrame at h
  split at h
  · cases h
  · cases h
    refine (grows_frames d (SlotMap.grows_insert _ _) ?_).trans
      (grows_feeds _ (SlotMap.grows_modify _ _ _) ?_)
    · intro g F hF
      exact ⟨F, insert_get hF _, rfl, rfl, rfl⟩
    · intro k l hk
      replace hk : d.feeds.get k = some l := hk
      rw [SlotMap.get_modify]
      by_cases hg : k = feed
      · subst hg
        exact ⟨[d.frames.next], by simp [hk]⟩
      · exact ⟨[], by simp [hg, hk]⟩

theorem grows_addView {d d' : Data P} {r frame : Nat} {pose : P} {ex : Nat → Option (List Nat)}
    (h : d.addView r frame pose ex = some d') : d.GrowsK d' := by
  unfold addView at h
  split at h
  · cases h
  · split at h
    · cases h
    · rename_i h1
      split at h
      · cases h
      · exact (grows_setFrameView h1).trans (grows_onRecon h (fun _ _ h => Recon.grows_addView h))

theorem grows_addReconstruction {d d' : Data P} {c f s : Nat} {idp p1 p2 : P}
    {cm : List (Nat × Nat × Nat)} {m1 m2 : List (Nat × Nat)}
    (h : d.addReconstruction c f s idp p1 p2 cm m1 m2 = some d') : d.GrowsK d' := by
  unfold addReconstruction at h
  simp only at h
  split at h
  · cases h
  · rename_i h1
    split at h
    · cases h
    · split at h
      · cases h
      · split at h
        · cases h
        · rename_i h2
          split at h
          · cases h
          · split at h
            · cases h
            · split at h
              · cases h
              · rename_i h3
                refine ((((grows_insertRecon d _).trans (grows_addView h1)).trans
                  (grows_addView h2)).trans (grows_addView h3)).trans (grows_onRecon h ?_)
                intro R R' h
                cases h
                exact Recon.grows_constraints R (SlotMap.grows_insert _ _)

theorem grows_removeView {d d' : Data P} {r v : Nat} (h : d.removeView r v = some d') :
    d.GrowsK d' := by
  unfold removeView at h
  split at h
  · cases h
  · split at h
    · cases h
    · rename_i h1
      exact (grows_setFrameView h1).trans (grows_onRecon h (fun _ _ h => Recon.grows_removeView h))

theorem grows_splitObservation {d d' : Data P} {r v f : Nat} {b : Bool}
    (h : d.splitObservation r v f = some (d', b)) : d.GrowsK d' := by
  unfold splitObservation at h
  split at h
  · cases h
  · rename_i hR
    split at h
    · cases h
    · rename_i h1
      cases h
      exact grows_replace d hR (Recon.grows_split h1)

theorem grows_mergeDedup {loss : Recon P → Nat → Nat → Nat} {d d' : Data P} {r a b : Nat}
    {x : Option Nat} (h : d.mergeDedup loss r a b = some (d', x)) : d.GrowsK d' := by
  unfold mergeDedup at h
  split at h
  · cases h
  · rename_i hR
    split at h
    · cases h
    · rename_i h1
      cases h
      exact grows_replace d hR (Recon.grows_mergeDedup h1)

theorem grows_record {ω : Oracle P} {s : Settings} {d d' : Data P} {r v : Nat} {b : Bool}
    (h : d.recordViewConstraints ω s r v = some (d', b)) : d.GrowsK d' := by
  unfold recordViewConstraints at h
  split at h
  · cases h
  · rename_i hR
    split at h
    · cases h
    · rename_i h1
      cases h
      exact grows_replace d hR (Recon.grows_record h1)

theorem grows_incorporateFrame {ω : Oracle P} {s : Settings} {d d' : Data P} {r frame : Nat}
    {pose : P} {ex : Nat → Option (List Nat)} {x : Option Nat}
    (h : d.incorporateFrame ω s r frame pose ex = some (d', x)) : d.GrowsK d' := by
  unfold incorporateFrame at h
  split at h
  · cases h
  · simp only at h
    split at h
    · cases h
    · rename_i h1
      split at h
      · cases h
      · rename_i h2
        cases h
        exact (grows_addView h1).trans (grows_record h2)
      · rename_i h2
        split at h
        · cases h
        · rename_i h3
          cases h
          exact ((grows_addView h1).trans (grows_record h2)).trans (grows_removeView h3)

theorem grows_incorporateFeatures (dv : Nat) (lms : List Nat) (fs : List Nat) :
    ∀ {R R' : Recon P} {m m' : FMap Nat},
    incorporateFeatures dv lms fs R m = some (R', m') → R.Grows R' := by
  induction fs with
  | nil => intro R R' m m' h; cases h; exact Recon.Grows.refl _
  | cons f fs ih =>
    intro R R' m m' h
    unfold incorporateFeatures at h
    split at h
    · cases h
    · split at h
      · split at h
        · cases h
        · rename_i R1 h1
          cases ho : R.observe _ dv f with
          | none => rw [ho] at h1; cases h1
          | some R0 =>
            rw [ho] at h1
            exact ((Recon.grows_observe ho).trans (Recon.grows_pushOwner h1)).trans (ih h)
      · split at h
        · cases h
        · rename_i h1
          exact ((Recon.grows_addLandmark R dv f).trans (Recon.grows_pushOwner h1)).trans (ih h)

theorem grows_incorporateView {tr : P → P} {src dst sv dv : Nat} {d d' : Data P} {m m' : FMap Nat}
    (h : incorporateView tr src dst sv d m = some (d', m', dv)) : d.GrowsK d' := by
  unfold incorporateView at h
  split at h
  · rename_i D hV hD
    simp only at h
    split at h
    · cases h
    · rename_i d1 h1
      split at h
      · cases h
      · split at h
        · cases h
        · rename_i D' m1 h2
          cases h
          have hr : d1.recons = d.recons := by
            unfold setFrameView at h1
            split at h1
            · cases h1
            · cases h1; rfl
          refine (grows_setFrameView h1).trans (grows_replace d1 (R := D) (by rw [hr]; exact hD) ?_)
          exact (Recon.grows_views D (SlotMap.grows_insert _ _)).trans
            (grows_incorporateFeatures _ _ _ h2)
  · cases h

theorem grows_incorporateViews (tr : P → P) (src dst : Nat) (svs : List Nat) :
    ∀ {d d' : Data P} {m m' : FMap Nat} {dvs : List Nat},
    incorporateViews tr src dst svs d m = some (d', m', dvs) → d.GrowsK d' := by
  induction svs with
  | nil => intro d d' m m' dvs h; cases h; exact GrowsK.refl _
  | cons v svs ih =>
    intro d d' m m' dvs h
    unfold incorporateViews at h
    split at h
    · cases h
    · rename_i h1
      split at h
      · cases h
      · rename_i h2
        cases h
        exact (grows_incorporateView h1).trans (ih h2)

theorem grows_constrainNew (ω : Nat → Oracle P) (s : Settings) (dst : Nat) (vs : List Nat) :
    ∀ {d d' : Data P}, constrainNew ω s dst vs d = some d' → d.GrowsK d' := by
  induction vs with
  | nil => intro d d' h; cases h; exact GrowsK.refl _
  | cons v vs ih =>
    intro d d' h
    unfold constrainNew at h
    split at h
    · cases h
    · rename_i h1; exact (grows_record h1).trans (ih h)
    · rename_i h1
      split at h
      · cases h
      · rename_i h2; exact ((grows_record h1).trans (grows_removeView h2)).trans (ih h)

theorem grows_incorporateReconstruction {ω : Nat → Oracle P} {s : Settings} {tr : P → P}
    {d d' : Data P} {src dst : Nat} {m : FMap Nat}
    (h : incorporateReconstruction ω s tr d src dst m = some d') : d.GrowsK d' := by
  unfold incorporateReconstruction at h
  split at h
  · cases h
  · split at h
    · cases h
    · rename_i h1
      split at h
      · cases h
      · rename_i h2
        cases h
        exact ((grows_incorporateViews _ _ _ _ h1).trans (grows_constrainNew _ _ _ _ h2)).trans
          (grows_eraseRecon _ _)

theorem grows_tryMerge {ω : Oracle P} {ω' : Nat → Oracle P} {s : Settings} {tr : P → P}
    {d d' : Data P} {src sv dst : Nat} {pose : P} {ms : FMap (List Nat)} {b : Bool}
    (h : tryMerge ω ω' s tr d src sv dst pose ms = some (d', b)) : d.GrowsK d' := by
  unfold tryMerge at h
  split at h
  · simp only at h
    split at h
    · cases h
    · rename_i h1
      split at h
      · cases h
      · rename_i h2
        split at h
        · cases h
        · rename_i h3
          split at h
          · cases h
          · rename_i h4
            cases h
            exact (((grows_addView h1).trans (grows_record h2)).trans (grows_removeView h3)).trans
              (grows_setFrameView h4)
      · rename_i h2
        split at h
        · cases h
        · split at h
          · cases h
          · rename_i h3
            split at h
            · cases h
            · rename_i h4
              cases h
              refine (((grows_addView h1).trans (grows_record h2)).trans (grows_onRecon h3 ?_)).trans
                (grows_incorporateReconstruction h4)
              intro R R' h
              cases h
              exact Recon.grows_views R (SlotMap.grows_erase _ _)
  · cases h

theorem grows_clearFrames (Vs : List (View P)) : ∀ {d d' : Data P},
    clearFrames Vs d = some d' → d.GrowsK d' := by
  induction Vs with
  | nil => intro d d' h; cases h; exact GrowsK.refl _
  | cons V Vs ih =>
    intro d d' h
    unfold clearFrames at h
    split at h
    · cases h
    · rename_i h1; exact (grows_setFrameView h1).trans (ih h)

theorem grows_removeReconstruction {d d' : Data P} {r : Nat}
    (h : d.removeReconstruction r = some d') : d.GrowsK d' := by
  unfold removeReconstruction at h
  split at h
  · cases h
  · split at h
    · cases h
    · rename_i h1
      cases h
      exact (grows_clearFrames _ h1).trans (grows_eraseRecon _ _)

theorem grows_updatePoses (r : Nat) (us : List (Nat × P)) : ∀ {d d' : Data P},
    updatePoses r us d = some d' → d.GrowsK d' := by
  induction us with
  | nil => intro d d' h; cases h; exact GrowsK.refl _
  | cons e us ih =>
    obtain ⟨v, p⟩ := e
    intro d d' h
    unfold updatePoses at h
    split at h
    · cases h
    · rename_i h1
      refine (grows_onRecon h1 ?_).trans (ih h)
      intro R R' h
      split at h
      · cases h
      · cases h; exact Recon.grows_views R (SlotMap.grows_modify _ _ _)

theorem grows_removeViews (r : Nat) (vs : List Nat) : ∀ {d d' : Data P},
    removeViews r vs d = some d' → d.GrowsK d' := by
  induction vs with
  | nil => intro d d' h; cases h; exact GrowsK.refl _
  | cons v vs ih =>
    intro d d' h
    unfold removeViews at h
    split at h
    · cases h
    · rename_i h1; exact (grows_removeView h1).trans (ih h)

theorem grows_applyLoop (ω : Nat → Oracle P) (r : Nat) (edges : List (Nat × Nat × P)) (n : Nat) :
    ∀ {d d' : Data P} {b : Bool}, applyLoop ω r edges n d = some (d', b) → d.GrowsK d' := by
  induction n with
  | zero => intro d d' b h; cases h; exact GrowsK.refl _
  | succ n ih =>
    intro d d' b h
    unfold applyLoop at h
    split at h
    · cases h
    · split at h
      · cases h
      · split at h
        · split at h
          · cases h
          · rename_i h1
            unfold applyBundleAdjust at h1
            split at h1
            · cases h1
            · rename_i h2
              exact ((grows_updatePoses _ _ h2).trans (grows_removeViews _ _ h1)).trans (ih h)
        · split at h
          · cases h
          · rename_i h1
            cases h
            exact grows_removeReconstruction h1

theorem grows_filterObservations {ω : Oracle P} {s : Settings} {d d' : Data P} {r : Nat} {b : Bool}
    (h : d.filterObservations ω s r = some (d', b)) : d.GrowsK d' := by
  unfold filterObservations at h
  split at h
  · cases h
  · rename_i hR
    split at h
    · cases h
    · rename_i h1
      simp only at h
      split at h
      · split at h
        · cases h
        · rename_i h2
          cases h
          exact (grows_replace d hR (Recon.grows_filterLandmarks _ _ h1)).trans
            (grows_removeReconstruction h2)
      · cases h
        exact grows_replace d hR (Recon.grows_filterLandmarks _ _ h1)

theorem grows_optimizeLoop [Mul P] [Inv P] (ω : Nat → Nat → Oracle P) (ω' : Nat → Oracle P)
    (s : Settings) (r : Nat) (n : Nat) : ∀ {d d' : Data P} {b : Bool},
    optimizeLoop ω ω' s r n d = some (d', b) → d.GrowsK d' := by
  induction n with
  | zero => intro d d' b h; cases h; exact GrowsK.refl _
  | succ n ih =>
    intro d d' b h
    unfold optimizeLoop applyConstraints at h
    split at h
    · cases h
    · rename_i h1
      cases h
      split at h1
      · cases h1
      · exact grows_applyLoop _ _ _ _ h1
    · rename_i h1
      split at h1
      · cases h1
      · split at h
        · cases h
        · rename_i h2
          cases h
          exact (grows_applyLoop _ _ _ _ h1).trans (grows_filterObservations h2)
        · rename_i h2
          exact ((grows_applyLoop _ _ _ _ h1).trans (grows_filterObservations h2)).trans (ih h)

theorem grows_regenerateLoop (ω : Nat → Oracle P) (s : Settings) (r : Nat) (vs : List Nat) :
    ∀ {d d' : Data P}, regenerateLoop ω s r vs d = some d' → d.GrowsK d' := by
  induction vs with
  | nil => intro d d' h; cases h; exact GrowsK.refl _
  | cons v vs ih =>
    intro d d' h
    unfold regenerateLoop at h
    split at h
    · cases h
    · rename_i h1; exact (grows_record h1).trans (ih h)

theorem grows_regenerate {ω : Nat → Oracle P} {s : Settings} {d d' : Data P} {r : Nat}
    (h : d.regenerateConstraints ω s r = some d') : d.GrowsK d' := by
  unfold regenerateConstraints at h
  split at h
  · cases h
  · rename_i R hR
    refine (grows_replace d hR ?_).trans (grows_regenerateLoop _ _ _ _ h)
    refine Recon.grows_constraints R (SlotMap.grows_of_keys (Nat.le_refl _) ?_)
    intro k hk
    simp [SlotMap.clear, FMap.empty] at hk

end Data

theorem map_fst {α β : Type} {o : Option (α × β)} {a : α} (h : o.map Prod.fst = some a) :
    ∃ b, o = some (a, b) := by
  cases o with
  | none => cases h
  | some x => obtain ⟨y, b⟩ := x; cases h; exact ⟨b, rfl⟩

/-- Every call, whatever its arguments, only adds keys at the counters. -/
theorem step_grows [Mul P] [Inv P] {d d' : Data P} {op : Op P} (h : step d op = some d') :
    d.GrowsK d' := by
  cases op <;> simp only [step] at h
  case addFeed =>
    cases h
    exact Data.grows_feeds d (SlotMap.grows_insert _ _)
      (fun k l hk => ⟨[], by rw [List.append_nil]; exact Data.insert_get hk _⟩)
  case addFrame => exact Data.grows_addFrame h
  case addReconstruction => exact Data.grows_addReconstruction h
  case addView => exact Data.grows_addView h
  case incorporateFrame => obtain ⟨_, h⟩ := map_fst h; exact Data.grows_incorporateFrame h
  case tryMerge => obtain ⟨_, h⟩ := map_fst h; exact Data.grows_tryMerge h
  case incorporateReconstruction => exact Data.grows_incorporateReconstruction h
  case removeView => exact Data.grows_removeView h
  case splitObservation => obtain ⟨_, h⟩ := map_fst h; exact Data.grows_splitObservation h
  case splitLandmark => exact Data.grows_onRecon h (fun _ _ h => Recon.grows_splitLandmark h)
  case mergeLandmarks => exact Data.grows_onRecon h (fun _ _ h => Recon.grows_merge h)
  case mergeDedup => obtain ⟨_, h⟩ := map_fst h; exact Data.grows_mergeDedup h
  case recordConstraints => obtain ⟨_, h⟩ := map_fst h; exact Data.grows_record h
  case regenerateConstraints => exact Data.grows_regenerate h
  case filterObservations => obtain ⟨_, h⟩ := map_fst h; exact Data.grows_filterObservations h
  case filterLandmarks =>
    exact Data.grows_onRecon h (fun _ _ h => Recon.grows_splitNonRobust _ _ h)
  case optimize => obtain ⟨_, h⟩ := map_fst h; exact Data.grows_optimizeLoop _ _ _ _ _ h
  case normalize =>
    refine Data.grows_onRecon h (fun R R' h => ?_)
    split at h
    · cases h
    · cases h; exact Recon.grows_mapPoses _ _ _
  case removeReconstruction => exact Data.grows_removeReconstruction h

theorem run_grows [Mul P] [Inv P] (ops : List (Op P)) : ∀ {d d' : Data P},
    run d ops = some d' → d.GrowsK d' := by
  induction ops with
  | nil => intro d d' h; cases h; exact Data.GrowsK.refl _
  | cons op ops ih =>
    intro d d' h
    unfold run at h
    split at h
    · cases h
    · rename_i h1; exact (step_grows h1).trans (ih h)

end Sfm
end Verif
