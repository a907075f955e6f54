import Verif.Props.SfmPipeline

/-!
# C93: the pose of a frame with exact bearings is found

The other direction of `C93_placed_partial`: when the consensus finds a pose for the exact matches, the tests that follow do
not reject it.
-/

namespace Verif.Sfm

open Verif.Geo

variable {C : Type} {W : World C} {sc : Scene} {g : Iso ℝ} {k : ℝ} {R : Recon (Iso ℝ)}

/-- No feature of the frame looks more than 90 degrees away from the direction in which the origin of the coordinates `g`
sees the point. -/
def Scene.Facing (sc : Scene) (W : World C) (g : Iso ℝ) (f : Nat) : Prop :=
  ∀ n b, W.bearing f n = some b → 0 ≤ (sc.ray f b).dot ((sc.point f n).sub g.t)

theorem facing_local (hf : Scene.Facing sc W g f) (hg : g.Rigid) (hk : 0 < k) {n : Nat} {b : V3 ℝ}
    (hb : W.bearing f n = some b) :
    0 ≤ ((sc.viewed g k f).inv.rot.mulVec b).dot (V3.smul k (g.inv.point (sc.point f n))) := by
  rw [viewed_ray]
  have e : g.inv.point (sc.point f n) = g.rot.transpose.mulVec ((sc.point f n).sub g.t) := by
    simp only [Iso.inv]
    lin3
  rw [e]
  have e2 : ∀ a c : V3 ℝ, a.dot (V3.smul k c) = k * a.dot c := by
    intro a c
    simp only [lin]
    ring
  rw [e2, (M3.IsRot.transpose hg).dot_mulVec]
  exact mul_nonneg hk.le (hf n b hb)

/-- A match with a point agrees with the right pose. -/
theorem located_agrees (hp : sc.Pictured W) (hfind : CompleteTriangulator W.triangulate) (hg : g.Rigid) (hk : 0 < k)
    (hR : R.Consistent) (ht : R.TrueIn sc g k) (hface : ∀ v V, R.views.get v = some V → sc.Facing W g V.frame)
    {frame : Nat} (hface' : sc.Facing W g frame) {m : List Nat × Nat}
    (hm : ∀ l ∈ m.1, R.Depicts sc l (sc.point frame m.2)) {w : WorldMatch} (h : Located W R frame m w) {lim : Limits}
    (hl : 0 < lim.maxCosine) : Agrees W lim R frame (sc.viewed g k frame) m.1 m.2 := by
  have hpt := located_point hp hg hk hR ht hm h.2
  obtain ⟨hb, obs, pbs, hobs, hrob, hs, htri⟩ := h
  obtain ⟨p, p1, _, p3⟩ := fromPoint_some (fromPoint_ne hpt)
  have hlen : obs.length = pbs.length := hs.length_eq
  have hr : ∀ q ∈ pbs ++ [(sc.viewed g k frame, w.1)], q.1.Rigid := by
    intro q hq
    rcases List.mem_append.mp hq with hq | hq
    · obtain ⟨a, _, U, hU, e, _⟩ := forall₂_right hs q hq
      rw [← e]
      exact ht.rigid hp.seen.rigid hg _ _ hU
    · rw [List.mem_singleton] at hq
      subst hq
      exact Scene.viewed_rigid hp.seen.rigid hg k frame
  have hlk : ∀ q ∈ pbs ++ [(sc.viewed g k frame, w.1)],
      Looks q.1 q.2 (V3.smul k (g.inv.point (sc.point frame m.2))) ∧
      0 ≤ (q.1.inv.rot.mulVec q.2).dot (V3.smul k (g.inv.point (sc.point frame m.2))) := by
    intro q hq
    rcases List.mem_append.mp hq with hq | hq
    · obtain ⟨a, ha, U, hU, e, hbU⟩ := forall₂_right hs q hq
      rw [← e, ht.poses _ _ hU, ← observed_point hR hm hobs ha hU]
      exact ⟨looks_viewed hk hg (hp.seen.looks _ _ _ hbU), facing_local (hface _ _ hU) hg hk hbU⟩
    · rw [List.mem_singleton] at hq
      subst hq
      exact ⟨looks_viewed hk hg (hp.seen.looks _ _ _ hb), facing_local hface' hg hk hb⟩
  have hacross := robust_across hp hg hR ht hm hobs hrob hs
  refine ⟨obs, pbs, w.1, hobs, hs, hb, Or.inr ⟨?_, p, ?_, ?_⟩⟩
  · obtain ⟨o, ho, o', ho', hn⟩ := hacross
    match pbs, ho, ho' with
    | [], h, _ => cases h
    | [q], h, h' =>
      rw [List.mem_singleton] at h h'
      subst h h'
      exfalso
      apply hn
      lin3
    | _ :: _ :: _, _, _ => simp
  · rw [hfind _ _ ⟨hr, fun q hq => (hlk q hq).1, fromPoint_ne hpt, ?_⟩ (fun q hq => (hlk q hq).2), p1]
    obtain ⟨o, ho, o', ho', hn⟩ := hacross
    exact ⟨o, List.mem_append_left _ ho, o', List.mem_append_left _ ho', hn⟩
  · intro q hq
    have := cosine_exact p1 p3 (hlk q hq).1
    unfold cosineDistance at this
    obtain ⟨z, hz, he⟩ := Option.map_eq_some_iff.mp this
    exact ⟨z, hz, by linarith⟩

/-- **C93** If enough matches of a frame have a point, all matches are right and the consensus finds a pose, then the
pose is the true one and it is accepted. -/
theorem C93_found_partial (hp : sc.Pictured W) (hfind : CompleteTriangulator W.triangulate) (hg : g.Rigid) (hk : 0 < k)
    (hR : R.Consistent) (ht : R.TrueIn sc g k) (hface : ∀ v V, R.views.get v = some V → sc.Facing W g V.frame)
    {frame : Nat} (hface' : sc.Facing W g frame) {lim : Limits} (hl : 0 < lim.maxCosine) {s : PoseSettings}
    (hcap : 0 < s.cap) {consensus : List WorldMatch → Option (Iso ℝ × List Nat)} (hc : ExactConsensus consensus)
    {ms : List (List Nat × Nat)} (hm : ProperMatches W R frame ms) (hnd : ms.Nodup)
    (hright : ∀ m ∈ ms, ∀ l ∈ m.1, R.Depicts sc l (sc.point frame m.2)) {ws : List WorldMatch}
    (hws : PointsOf W R frame (fun _ => True) ms ws) (hmin : s.minLandmarks ≤ ws.length) {pose : Iso ℝ} {is : List Nat}
    (hcon : consensus ws = some (pose, is)) (hne : is ≠ []) (hind : is.Nodup) :
    estimatePose W lim s consensus R frame ms = some (some (sc.viewed g k frame)) ∧
      ∀ m ∈ ms, (∃ w, Located W R frame m w) → Agrees W lim R frame (sc.viewed g k frame) m.1 m.2 := by
  have hag : ∀ m ∈ ms, (∃ w, Located W R frame m w) → Agrees W lim R frame (sc.viewed g k frame) m.1 m.2 :=
    fun m hm' ⟨w, hw⟩ => located_agrees hp hfind hg hk hR ht hface hface' (hright m hm') hw hl
  refine ⟨?_, hag⟩
  obtain ⟨sub, hsub, hloc, _, hall⟩ := hws
  have hfits : ∀ w ∈ ws, Geo.Fits (sc.viewed g k frame) w := by
    intro w hw
    obtain ⟨m, hm', h⟩ := forall₂_right hloc w hw
    exact true_fits hp hg hk hR ht (hright m (hsub.subset hm')) h
  have hpose : sc.viewed g k frame = pose := hc.only ws pose is hcon _ (Scene.viewed_rigid hp.seen.rigid hg k frame)
    (fun i _ w hw => hfits w (List.mem_of_getElem? hw))
  rw [hpose] at hag hfits ⊢
  refine C88_right_pose (pose_data hp hg hR ht) lim s hc.fair hm hnd ⟨sub, hsub, hloc, fun _ _ => trivial, hall⟩ hmin hcon
    hne hcap (fun i _ w hw => hfits w (List.mem_of_getElem? hw)) (fin := ws) ?_ hfits ?_
  · refine ⟨sub, hsub, hloc, fun m hm' => hag m (hsub.subset hm') ?_, fun m hm' _ h => hall m hm' trivial h⟩
    obtain ⟨w, _, h⟩ := forall₂_left hloc m hm'
    exact ⟨w, h⟩
  · have h1 : is.length ≤ ws.length := by
      have := (List.subperm_of_subset hind (l₂ := List.range ws.length)
        (fun i hi => List.mem_range.mpr (hc.fair.range _ _ _ hcon i hi))).length_le
      simpa using this
    have h2 : 0 < is.length := List.length_pos_iff.mpr hne
    have h3 : min s.cap is.length ≤ is.length := Nat.min_le_right _ _
    omega

end Verif.Sfm
