import Verif.Lemmas.SfmHistory
import Verif.Model.SfmSanity
import Verif.Props.SfmExample

/-!
# C01-C06, C20, C60: invariants of every history

`Reachable d` (Spec/SfmHistory) says that `d` is reached from the empty data by calls that meet
their preconditions.
-/

namespace Verif.Sfm

variable {P : Type} [Mul P] [Inv P]

/-- **C01** For every live view and every feature of its frame there is exactly one landmark, it
exists and lists this feature for this view; and every stored observation names a live view that
assigns this feature to this landmark. -/
theorem C01_views_and_landmarks_agree {d : Data P} (h : Reachable d) {r : Nat} {R : Recon P}
    (hR : d.recons.get r = some R) :
    (∀ v V, R.views.get v = some V → ∃ F, d.frames.get V.frame = some F ∧
      V.landmarks.length = F.nfeat ∧
      ∀ f, f < F.nfeat → ∃ l L, V.landmarks[f]? = some l ∧
        R.landmarks.get l = some L ∧ L.get v = some f) ∧
    (∀ l L v f, R.landmarks.get l = some L → (v, f) ∈ L.entries →
      ∃ V, R.views.get v = some V ∧ V.landmarks[f]? = some l) := by
  have hd := reachable_consistent h
  have hc := hd.recons r R hR
  refine ⟨?_, ?_⟩
  · intro v V hV
    obtain ⟨F, hF, _, hlen⟩ := hd.viewFrame r R v V hR hV
    refine ⟨F, hF, hlen, ?_⟩
    intro f hf
    have hl : V.landmarks[f]? = some V.landmarks[f] := List.getElem?_eq_getElem (by omega)
    obtain ⟨L, hL, hg⟩ := (hc.agree v f _).mp ⟨V, hV, hl⟩
    exact ⟨_, L, hl, hL, hg⟩
  · intro l L v f hL hmem
    exact (hc.agree v f l).mpr ⟨L, hL, FMap.get_of_mem (hc.obsWF l L hL) hmem⟩

/-- The example state has four views and three landmarks with eleven observations. -/
example : Reachable Ex.d7 ∧ Ex.d7.recons.get 0 = some Ex.R7 := ⟨Ex.reach7, Ex.get7⟩

/-- **C02** No landmark is empty, none has two features from one view, and two landmarks never
share an observation. -/
theorem C02_landmarks_nonempty_and_disjoint {d : Data P} (h : Reachable d) {r : Nat} {R : Recon P}
    (hR : d.recons.get r = some R) :
    (∀ l L, R.landmarks.get l = some L → L.entries ≠ []) ∧
    (∀ l L v f g, R.landmarks.get l = some L → (v, f) ∈ L.entries → (v, g) ∈ L.entries → f = g) ∧
    (∀ l L, R.landmarks.get l = some L → (L.entries.map Prod.fst).Nodup) ∧
    (∀ l l' L L' v f, R.landmarks.get l = some L → R.landmarks.get l' = some L' →
      (v, f) ∈ L.entries → (v, f) ∈ L'.entries → l = l') := by
  have hc := (reachable_consistent h).recons r R hR
  refine ⟨?_, ?_, ?_, ?_⟩
  · intro l L hL
    exact Recon.entries_ne_nil hc hL
  · intro l L v f g hL h1 h2
    have w := hc.obsWF l L hL
    have e1 := FMap.get_of_mem w h1
    have e2 := FMap.get_of_mem w h2
    rw [e1] at e2
    exact Option.some.inj e2
  · intro l L hL
    exact hc.obsWF l L hL
  · intro l l' L L' v f hL hL' h1 h2
    exact Recon.assigned_unique
      ((hc.agree v f l).mpr ⟨L, hL, FMap.get_of_mem (hc.obsWF l L hL) h1⟩)
      ((hc.agree v f l').mpr ⟨L', hL', FMap.get_of_mem (hc.obsWF l' L' hL') h2⟩)

example : Reachable Ex.d7 ∧ Ex.R7.landmarks.get 2 = some ⟨[(0, 2), (2, 1), (1, 1), (3, 0)]⟩ :=
  ⟨Ex.reach7, rfl⟩

/-- **C03** A frame reports membership `(r, v)` exactly when `v` is a live view of the live
reconstruction `r` made from this frame; every view has a live frame; two views never share one. -/
theorem C03_frames_and_views {d : Data P} (h : Reachable d) :
    (∀ f F r v, d.frames.get f = some F → (F.view = some (r, v) ↔
      ∃ R V, d.recons.get r = some R ∧ R.views.get v = some V ∧ V.frame = f)) ∧
    (∀ r R v V, d.recons.get r = some R → R.views.get v = some V →
      ∃ F, d.frames.get V.frame = some F) ∧
    (∀ r R v V r' R' v' V', d.recons.get r = some R → R.views.get v = some V →
      d.recons.get r' = some R' → R'.views.get v' = some V' → V.frame = V'.frame →
      r = r' ∧ v = v') := by
  have hd := reachable_consistent h
  refine ⟨?_, ?_, ?_⟩
  · intro f F r v hF
    refine ⟨hd.frameView f F r v hF, ?_⟩
    rintro ⟨R, V, hR, hV, rfl⟩
    obtain ⟨F', hF', hv, _⟩ := hd.viewFrame r R v V hR hV
    rw [hF] at hF'
    cases hF'
    exact hv
  · intro r R v V hR hV
    obtain ⟨F, hF, _⟩ := hd.viewFrame r R v V hR hV
    exact ⟨F, hF⟩
  · intro r R v V r' R' v' V' hR hV hR' hV' he
    obtain ⟨F, hF, hv, _⟩ := hd.viewFrame r R v V hR hV
    obtain ⟨F', hF', hv', _⟩ := hd.viewFrame r' R' v' V' hR' hV'
    rw [← he, hF] at hF'
    cases hF'
    rw [hv] at hv'
    cases hv'
    exact ⟨rfl, rfl⟩

/-- Frame 3 of the example is in no view before, and in view 3 after, the last call. -/
example : (∃ F, Ex.d6.frames.get 3 = some F ∧ F.view = none) ∧
    (∃ F, Ex.d7.frames.get 3 = some F ∧ F.view = some (0, 3)) := ⟨⟨_, rfl, rfl⟩, ⟨_, rfl, rfl⟩⟩

/-- **C04** Every stored three-view constraint names three different live views. -/
theorem C04_constraints_live {d : Data P} (h : Reachable d) {r : Nat} {R : Recon P}
    (hR : d.recons.get r = some R) {k : Nat} {c : Constraint P}
    (hk : R.constraints.get k = some c) :
    R.LiveView c.v0 ∧ R.LiveView c.v1 ∧ R.LiveView c.v2 ∧
      c.v0 ≠ c.v1 ∧ c.v0 ≠ c.v2 ∧ c.v1 ≠ c.v2 :=
  ((reachable_consistent h).recons r R hR).constraintsLive k c hk

example : Ex.R7.constraints.get 0 = some ⟨0, 1, 2, ⟨1⟩, ⟨2⟩⟩ := rfl

/-- **C05** A call that meets its preconditions does not panic in a reachable state. For the
optimisation the additional hypothesis is that every pose update is finite (see C16). -/
theorem C05_no_panic {d : Data P} (h : Reachable d) {op : Op P} (hv : Valid d op)
    (hf : Finite op) : ∃ d', step d op = some d' ∧ Reachable d' := by
  obtain ⟨d', hs⟩ := (step_ok (reachable_consistent h) hv).1 hf
  exact ⟨d', hs, .step h hv hs⟩

/-- Preconditions met by a call that merges two landmarks while adding a view, by removing a view
and by removing the reconstruction. -/
example : Valid Ex.d6 (.addView 0 3 ⟨3⟩ Ex.ex4) ∧ Valid Ex.d7 (.removeView 0 1) ∧
    Valid Ex.d7 (.removeReconstruction 0) :=
  ⟨Ex.valid7, ⟨Ex.R7, Ex.get7, _, rfl⟩, ⟨Ex.R7, Ex.get7⟩⟩

/-! ## C06 -/

/-- The key resolves to a view. -/
def ResolvesView (d : Data P) (r v : Nat) : Prop :=
  ∃ R V, d.recons.get r = some R ∧ R.views.get v = some V

/-- The key resolves to a landmark. -/
def ResolvesLandmark (d : Data P) (r l : Nat) : Prop :=
  ∃ R L, d.recons.get r = some R ∧ R.landmarks.get l = some L

omit [Mul P] [Inv P] in
theorem dead_stays_dead {α : Type} {a b c : SlotMap α} (ha : a.WF) (h : a.Grows b)
    (h' : b.Grows c) {k : Nat} (hk : ∃ x, a.get k = some x) (hb : b.get k = none) :
    c.get k = none := by
  cases hc : c.get k with
  | none => rfl
  | some z =>
    obtain ⟨x, hx⟩ := hk
    have h1 := ha.fresh k x hx
    rcases h'.live k z hc with ⟨y, hy⟩ | h2
    · rw [hb] at hy; cases hy
    · have := h.next; omega

omit [Mul P] [Inv P] in
theorem keysOk_of_consistent {d : Data P} (h : d.Consistent) : d.KeysOk :=
  fun r R hR => h.reconsWF.fresh r R hR

/-- **C06** Take any history, cut at three points. A key that resolved at the first point and not
at the second does not resolve at the third: keys of removed objects are never handed out again.
The later calls may have any arguments. -/
theorem C06_dead_keys_stay_dead {d0 d1 d2 : Data P} (h : Reachable d0) {ops ops' : List (Op P)}
    (h01 : run d0 ops = some d1) (h12 : run d1 ops' = some d2) (k r : Nat) :
    ((∃ x, d0.feeds.get k = some x) → d1.feeds.get k = none → d2.feeds.get k = none) ∧
    ((∃ x, d0.frames.get k = some x) → d1.frames.get k = none → d2.frames.get k = none) ∧
    ((∃ x, d0.recons.get k = some x) → d1.recons.get k = none → d2.recons.get k = none) ∧
    (ResolvesView d0 r k → ¬ ResolvesView d1 r k → ¬ ResolvesView d2 r k) ∧
    (ResolvesLandmark d0 r k → ¬ ResolvesLandmark d1 r k → ¬ ResolvesLandmark d2 r k) := by
  have hd := reachable_consistent h
  have hk0 := keysOk_of_consistent hd
  have g1 := run_grows ops h01 hk0
  have g2 := run_grows ops' h12 (g1.keysOk hk0)
  refine ⟨dead_stays_dead hd.feedsWF g1.feeds g2.feeds,
    dead_stays_dead hd.framesWF g1.frames g2.frames,
    dead_stays_dead hd.reconsWF g1.recons g2.recons, ?_, ?_⟩
  · rintro ⟨R0, V0, hR0, hV0⟩ hn ⟨R2, V2, hR2, hV2⟩
    cases hR1 : d1.recons.get r with
    | none =>
      have := dead_stays_dead hd.reconsWF g1.recons g2.recons ⟨R0, hR0⟩ hR1
      rw [this] at hR2
      cases hR2
    | some R1 =>
      have hV1 : R1.views.get k = none := by
        cases hV : R1.views.get k with
        | none => rfl
        | some V => exact absurd ⟨R1, V, hR1, hV⟩ hn
      have := dead_stays_dead (hd.recons r R0 hR0).viewsWF (g1.inside r R0 R1 hR0 hR1).views
        (g2.inside r R1 R2 hR1 hR2).views ⟨V0, hV0⟩ hV1
      rw [this] at hV2
      cases hV2
  · rintro ⟨R0, V0, hR0, hV0⟩ hn ⟨R2, V2, hR2, hV2⟩
    cases hR1 : d1.recons.get r with
    | none =>
      have := dead_stays_dead hd.reconsWF g1.recons g2.recons ⟨R0, hR0⟩ hR1
      rw [this] at hR2
      cases hR2
    | some R1 =>
      have hV1 : R1.landmarks.get k = none := by
        cases hV : R1.landmarks.get k with
        | none => rfl
        | some V => exact absurd ⟨R1, V, hR1, hV⟩ hn
      have := dead_stays_dead (hd.recons r R0 hR0).landmarksWF
        (g1.inside r R0 R1 hR0 hR1).landmarks
        (g2.inside r R1 R2 hR1 hR2).landmarks ⟨V0, hV0⟩ hV1
      rw [this] at hV2
      cases hV2

omit [Mul P] [Inv P] in
theorem new_key_fresh {α : Type} {a b : SlotMap α} (ha : a.WF) (h : a.Grows b) {k : Nat}
    (hk : a.get k = none) (hb : ∃ y, b.get k = some y) :
    a.next ≤ k ∧ ∀ j x, a.get j = some x → j < k := by
  obtain ⟨y, hy⟩ := hb
  rcases h.live k y hy with ⟨x, hx⟩ | h1
  · rw [hk] at hx; cases hx
  · exact ⟨h1.1, fun j x hj => Nat.lt_of_lt_of_le (ha.fresh j x hj) h1.1⟩

/-- **C06** A key that a call hands out is above the counter, and therefore differs from every
key handed out before: all earlier keys were below the counter and the counter never decreases. -/
theorem C06_new_keys_are_new {d d' : Data P} (h : Reachable d) {op : Op P}
    (hs : step d op = some d') (k : Nat) :
    (d.feeds.get k = none → (∃ y, d'.feeds.get k = some y) → d.feeds.next ≤ k) ∧
    (d.frames.get k = none → (∃ y, d'.frames.get k = some y) → d.frames.next ≤ k) ∧
    (d.recons.get k = none → (∃ y, d'.recons.get k = some y) → d.recons.next ≤ k) ∧
    (∀ r R R', d.recons.get r = some R → d'.recons.get r = some R' →
      (R.views.get k = none → (∃ y, R'.views.get k = some y) → R.views.next ≤ k) ∧
      (R.landmarks.get k = none → (∃ y, R'.landmarks.get k = some y) → R.landmarks.next ≤ k) ∧
      R.views.next ≤ R'.views.next ∧ R.landmarks.next ≤ R'.landmarks.next) ∧
    d.feeds.next ≤ d'.feeds.next ∧ d.frames.next ≤ d'.frames.next ∧
    d.recons.next ≤ d'.recons.next := by
  have hd := reachable_consistent h
  have g := step_grows hs (keysOk_of_consistent hd)
  refine ⟨fun h1 h2 => (new_key_fresh hd.feedsWF g.feeds h1 h2).1,
    fun h1 h2 => (new_key_fresh hd.framesWF g.frames h1 h2).1,
    fun h1 h2 => (new_key_fresh hd.reconsWF g.recons h1 h2).1, ?_, g.feeds.next, g.frames.next,
    g.recons.next⟩
  intro r R R' hR hR'
  have gi := g.inside r R R' hR hR'
  have hc := hd.recons r R hR
  exact ⟨fun h1 h2 => (new_key_fresh hc.viewsWF gi.views h1 h2).1,
    fun h1 h2 => (new_key_fresh hc.landmarksWF gi.landmarks h1 h2).1, gi.views.next,
    gi.landmarks.next⟩

/-- In the example landmark 3 resolves, the next call merges it away. -/
example : ResolvesLandmark Ex.d6 0 3 ∧ ¬ ResolvesLandmark Ex.d7 0 3 ∧
    run Ex.d6 [.addView 0 3 ⟨3⟩ Ex.ex4] = some Ex.d7 := by
  refine ⟨⟨_, _, rfl, rfl⟩, ?_, rfl⟩
  rintro ⟨R, L, hR, hL⟩
  cases hR
  exact absurd hL nofun

/-! ## C20 -/

/-- **C20** In every reachable state the frame at position `k` of a feed reports this feed and
position `k`, and every frame is at the position it reports. -/
theorem C20_feed_positions {d : Data P} (h : Reachable d) :
    (∀ k fs i f, d.feeds.get k = some fs → fs[i]? = some f →
      ∃ F, d.frames.get f = some F ∧ F.feed = k ∧ F.feedFrame = i) ∧
    (∀ f F, d.frames.get f = some F →
      ∃ fs, d.feeds.get F.feed = some fs ∧ fs[F.feedFrame]? = some f) :=
  ⟨(reachable_consistent h).feedFrames, (reachable_consistent h).frameFeed⟩

/-- **C20** Along any history a frame keeps its feed, its position and its number of features, and
the list of frames of a feed only grows at the end. -/
theorem C20_numbers_never_change {d d' : Data P} (h : Reachable d) {ops : List (Op P)}
    (hr : run d ops = some d') :
    (∀ f F, d.frames.get f = some F → ∃ F', d'.frames.get f = some F' ∧
      F'.feed = F.feed ∧ F'.feedFrame = F.feedFrame ∧ F'.nfeat = F.nfeat) ∧
    (∀ (k : Nat) (fs : List Nat) (i f : Nat), d.feeds.get k = some fs → fs[i]? = some f →
      ∃ fs' : List Nat, d'.feeds.get k = some fs' ∧ fs'[i]? = some f) := by
  have g := run_grows ops hr (keysOk_of_consistent (reachable_consistent h))
  refine ⟨g.frameData, ?_⟩
  intro k fs i f hk hi
  obtain ⟨gs, h1⟩ := g.feedPrefix k fs hk
  refine ⟨_, h1, ?_⟩
  have : i < fs.length := by
    rcases Nat.lt_or_ge i fs.length with h | h
    · exact h
    · rw [List.getElem?_eq_none h] at hi; cases hi
  rw [List.getElem?_append_left this]
  exact hi

example : Ex.d7.feeds.get 0 = some [0, 1, 2, 3] := rfl

/-! ## C60 -/

omit [Mul P] [Inv P] in
theorem sanityView_nil {R : Recon P} (hc : R.Consistent) {v : Nat} {V : View P}
    (hV : R.views.get v = some V) (ls : List Nat) : ∀ i, V.landmarks.drop i = ls →
    sanityView R v i ls = [] := by
  induction ls with
  | nil => intro i _; rfl
  | cons l ls ih =>
    intro i hi
    have hl : V.landmarks[i]? = some l := by
      have := congrArg (fun x => x[0]?) hi
      simpa using this
    have hi' : V.landmarks.drop (i + 1) = ls := by
      have := congrArg List.tail hi
      simpa using this
    obtain ⟨L, hL, hg⟩ := (hc.agree v i l).mp ⟨V, hV, hl⟩
    simp only [sanityView, sanityFeature, hL, hg, if_true, List.nil_append]
    exact ih (i + 1) hi'

/-- **C60** `sanity_check` logs no error in any reachable state. -/
theorem C60_sanity_check_silent {d : Data P} (h : Reachable d) {r : Nat} {R : Recon P}
    (hR : d.recons.get r = some R) : sanityCheck R = [] := by
  have hc := (reachable_consistent h).recons r R hR
  unfold sanityCheck
  rw [List.flatMap_eq_nil_iff]
  intro e he
  exact sanityView_nil hc (FMap.get_of_mem hc.viewsWF.nodup he) _ 0 rfl

omit [Mul P] [Inv P] in
/-- **C60** An error is logged for every feature whose landmark does not list it, so that silence
means that the tables agree. -/
theorem C60_sanity_check_complete {R : Recon P} (h : sanityCheck R = []) :
    ∀ v V f l, R.views.get v = some V → V.landmarks[f]? = some l →
      ∃ L, R.landmarks.get l = some L ∧ L.get v = some f := by
  intro v V f l hV hl
  unfold sanityCheck at h
  rw [List.flatMap_eq_nil_iff] at h
  have h1 := h (v, V) (FMap.mem_of_get hV)
  have key : ∀ (ls : List Nat) (i : Nat), sanityView R v i ls = [] → ∀ j l, ls[j]? = some l →
      sanityFeature R v (i + j) l = [] := by
    intro ls
    induction ls with
    | nil => intro i _ j l hj; simp at hj
    | cons a ls ih =>
      intro i hs j l hj
      simp only [sanityView, List.append_eq_nil_iff] at hs
      cases j with
      | zero => simp at hj; subst hj; exact hs.1
      | succ j =>
        have := ih (i + 1) hs.2 j l (by simpa using hj)
        have e : i + 1 + j = i + (j + 1) := by omega
        rwa [e] at this
  have h2 := key V.landmarks 0 h1 f l hl
  rw [Nat.zero_add] at h2
  unfold sanityFeature at h2
  split at h2
  · cases h2
  · rename_i L hL
    split at h2
    · rename_i hg; exact ⟨L, hL, hg⟩
    · cases h2

/-- A broken table is reported. -/
example : sanityCheck (P := Nat) ⟨⟨⟨[(0, ⟨0, 0, [7]⟩)]⟩, 1⟩, SlotMap.empty, SlotMap.empty⟩ =
    [.missingLandmark 0 0 7] := rfl

end Verif.Sfm
