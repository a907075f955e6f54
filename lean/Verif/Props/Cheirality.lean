import Verif.Lemmas.Eigen4
import Verif.Props.LinearTriangulate

/-!
# C52: points in front of the cameras
-/

namespace Verif.Geo

/-- The depth of `x` in the camera of an observation, along its bearing. -/
def depth (o : Observation) (x : V3 ℝ) : ℝ := (o.pose.point x).dot o.bearing

/-- What the test compares: depth plus how far the camera's centre is along its own ray. -/
theorem ray_dot {o : Observation} (hr : o.pose.Rigid) (x : V3 ℝ) :
    o.ray.dot x = depth o x + o.ray.dot o.centre := by
  have e1 : x = (o.pose.inv.rot.mulVec (o.pose.point x)).add o.centre := by
    have : (o.pose.inv.rot.mulVec (o.pose.point x)).add o.centre =
        (o.pose.rot.transpose.mul o.pose.rot).mulVec x := by lin3
    rw [this, hr.orth, M3.one_mulVec]
  have e2 : o.ray.dot (o.pose.inv.rot.mulVec (o.pose.point x)) = depth o x := by
    unfold Observation.ray depth
    rw [M3.IsRot.dot_mulVec hr.inv, V3.dot_comm]
  have e3 : ∀ a b c : V3 ℝ, a.dot (b.add c) = a.dot b + a.dot c := by
    intro a b c; simp only [lin]; ring
  conv_lhs => rw [e1]
  rw [e3, e2]

open Classical in
/-- **C52** (partial) The eigenvalue triangulator accepts an exact point precisely if its depth in every
camera is at least minus the distance of that camera along its own ray; so if all cameras are at the
world's origin, or on the plane through it perpendicular to their ray, precisely if it is not behind a
camera. (The property asks for the latter with any placement.) -/
theorem C52_accepted_iff_partial {solver : M4 → Option Eigen4} {os : List Observation} {e : Eigen4}
    (hs : solver (linearSystem os) = some e) (he : IsEigen4 (linearSystem os) e) (hp : Proper os)
    {x : V3 ℝ} (h : ∀ o ∈ os, Sighted o.pose o.bearing x) {o o' : Observation} (ho : o ∈ os)
    (ho' : o' ∈ os) (hn : o.ray.cross o'.ray ≠ V3.zero) (hx : x ≠ V3.zero) :
    ((linearEigen solver os).bind toPoint = some x ↔
      ∀ o ∈ os, -(o.ray.dot o.centre) ≤ depth o x) ∧
    ((∀ o ∈ os, o.ray.dot o.centre = 0) →
      ((linearEigen solver os).bind toPoint = some x ↔ ∀ o ∈ os, 0 ≤ depth o x)) := by
  have main : (linearEigen solver os).bind toPoint = some x ↔
      ∀ o ∈ os, -(o.ray.dot o.centre) ≤ depth o x := by
    rw [C51_exact hs he hp h ho ho' hn hx]
    have : (∀ o ∈ os, 0 ≤ o.ray.dot x) ↔ ∀ o ∈ os, -(o.ray.dot o.centre) ≤ depth o x := by
      refine forall₂_congr fun o ho => ?_
      rw [ray_dot (hp.rigid o ho)]
      constructor <;> intro h <;> linarith
    rw [← this]
    by_cases hc : ∀ o ∈ os, 0 ≤ o.ray.dot x
    · simp only [if_pos hc, true_iff]; exact hc
    · rw [if_neg hc]
      exact ⟨fun h => by simp at h, fun h => absurd h hc⟩
  refine ⟨main, fun h0 => main.trans ?_⟩
  refine forall₂_congr fun o ho => ?_
  rw [h0 o ho, neg_zero]

/-- An ordinary pair of cameras, five units before the origin, that both look forward. -/
noncomputable def pairBefore : List Observation :=
  [⟨⟨M3.one, ⟨0, 0, 5⟩⟩, ⟨0, 0, 1⟩⟩, ⟨⟨M3.one, ⟨-3, 0, 5⟩⟩, ⟨-3 / 5, 0, 4 / 5⟩⟩]

/-- The same beyond the origin. -/
noncomputable def pairBeyond : List Observation :=
  [⟨⟨M3.one, ⟨0, 0, -5⟩⟩, ⟨0, 0, 1⟩⟩, ⟨⟨M3.one, ⟨-3, 0, -5⟩⟩, ⟨3 / 5, 0, 4 / 5⟩⟩]

theorem pairBefore_looks : ∀ o ∈ pairBefore, Looks o.pose o.bearing ⟨0, 0, -1⟩ := by
  unfold pairBefore
  simp only [List.mem_cons, List.not_mem_nil, or_false, forall_eq_or_imp, forall_eq]
  exact ⟨⟨by simp only [lin]; norm_num, 4, by norm_num, by ext <;> simp only [lin] <;> norm_num⟩,
    ⟨by simp only [lin]; norm_num, 5, by norm_num, by ext <;> simp only [lin] <;> norm_num⟩⟩

theorem proper_pairs : Proper pairBefore ∧ Proper pairBeyond := by
  unfold pairBefore pairBeyond
  refine ⟨⟨?_, ?_⟩, ⟨?_, ?_⟩⟩ <;>
  simp only [List.mem_cons, List.not_mem_nil, or_false, forall_eq_or_imp, forall_eq]
  · exact ⟨M3.IsRot.one, M3.IsRot.one⟩
  · constructor <;> simp only [lin] <;> norm_num
  · exact ⟨M3.IsRot.one, M3.IsRot.one⟩
  · constructor <;> simp only [lin] <;> norm_num

/-- **C52** The property is false: two cameras with parallel axes, a point in front of both with rays 37
degrees apart, and every correct eigenvalue solver: the point is rejected, because it is not in front of
the world's origin. -/
theorem C52_front_rejected :
    (∀ o ∈ pairBefore, Looks o.pose o.bearing ⟨0, 0, -1⟩) ∧
    (∃ e, IsEigen4 (linearSystem pairBefore) e) ∧
    ∀ (solver : M4 → Option Eigen4) (e : Eigen4), solver (linearSystem pairBefore) = some e →
      IsEigen4 (linearSystem pairBefore) e → (linearEigen solver pairBefore).bind toPoint = none := by
  refine ⟨pairBefore_looks, linearSystem_eigen _, ?_⟩
  intro solver e hs he
  have hsight : ∀ o ∈ pairBefore, Sighted o.pose o.bearing ⟨0, 0, -1⟩ :=
    fun o ho => ⟨(pairBefore_looks o ho).1, (pairBefore_looks o ho).2.imp fun d h => h.2⟩
  rw [C51_exact hs he proper_pairs.1 hsight (o := ⟨⟨M3.one, ⟨0, 0, 5⟩⟩, ⟨0, 0, 1⟩⟩)
    (o' := ⟨⟨M3.one, ⟨-3, 0, 5⟩⟩, ⟨-3 / 5, 0, 4 / 5⟩⟩) (by simp [pairBefore]) (by simp [pairBefore])
    (fun e => by
      rw [V3.ext_iff] at e
      simp only [lin] at e
      norm_num at e)
    (fun e => by simpa [V3.zero] using congrArg V3.z e), if_neg]
  intro h
  have := h ⟨⟨M3.one, ⟨0, 0, 5⟩⟩, ⟨0, 0, 1⟩⟩ (by simp [pairBefore])
  simp only [lin] at this
  norm_num at this

/-- **C52** And the other way round: a point behind both cameras is accepted. -/
theorem C52_behind_accepted :
    (∀ o ∈ pairBeyond, depth o ⟨0, 0, 1⟩ < 0) ∧
    (∃ e, IsEigen4 (linearSystem pairBeyond) e) ∧
    ∀ (solver : M4 → Option Eigen4) (e : Eigen4), solver (linearSystem pairBeyond) = some e →
      IsEigen4 (linearSystem pairBeyond) e →
      (linearEigen solver pairBeyond).bind toPoint = some ⟨0, 0, 1⟩ := by
  refine ⟨?_, linearSystem_eigen _, ?_⟩
  · unfold pairBeyond depth
    simp only [List.mem_cons, List.not_mem_nil, or_false, forall_eq_or_imp, forall_eq]
    constructor <;> simp only [lin] <;> norm_num
  intro solver e hs he
  have hsight : ∀ o ∈ pairBeyond, Sighted o.pose o.bearing ⟨0, 0, 1⟩ := by
    unfold pairBeyond
    simp only [List.mem_cons, List.not_mem_nil, or_false, forall_eq_or_imp, forall_eq]
    exact ⟨⟨by simp only [lin]; norm_num, -4, by ext <;> simp only [lin] <;> norm_num⟩,
      ⟨by simp only [lin]; norm_num, -5, by ext <;> simp only [lin] <;> norm_num⟩⟩
  rw [C51_exact hs he proper_pairs.2 hsight (o := ⟨⟨M3.one, ⟨0, 0, -5⟩⟩, ⟨0, 0, 1⟩⟩)
    (o' := ⟨⟨M3.one, ⟨-3, 0, -5⟩⟩, ⟨3 / 5, 0, 4 / 5⟩⟩) (by simp [pairBeyond]) (by simp [pairBeyond])
    (fun e => by
      rw [V3.ext_iff] at e
      simp only [lin] at e
      norm_num at e)
    (fun e => by simpa [V3.zero] using congrArg V3.z e), if_pos]
  unfold pairBeyond
  simp only [List.mem_cons, List.not_mem_nil, or_false, forall_eq_or_imp, forall_eq]
  constructor <;> simp only [lin] <;> norm_num

/-- **C51** A case that meets the hypotheses of `C51_dlt_exact_partial`. -/
example : ∃ (pose : Iso ℝ) (a b x : V3 ℝ) (v : V4 ℝ), pose.Rigid ∧ Looks Iso.one a x ∧ Looks pose b x ∧
    a.z ≠ 0 ∧ b.z ≠ 0 ∧ a.cross (pose.inv.rot.mulVec b) ≠ V3.zero ∧ IsLast (dltDesign pose a b) v := by
  have ha : Looks Iso.one ⟨3 / 5, 0, 4 / 5⟩ ⟨3, 0, 4⟩ :=
    ⟨by simp only [lin]; norm_num, 5, by norm_num, by ext <;> simp only [lin] <;> norm_num⟩
  have hb : Looks ⟨M3.one, ⟨-3, 0, 0⟩⟩ ⟨0, 0, 1⟩ ⟨3, 0, 4⟩ :=
    ⟨by simp only [lin]; norm_num, 4, by norm_num, by ext <;> simp only [lin] <;> norm_num⟩
  obtain ⟨v, hv⟩ := exists_last (x := hom ⟨3, 0, 4⟩) (by unfold hom; simp only [lin]; norm_num)
    (C51_dlt_annihilates ⟨ha.1, ha.2.imp fun _ h => h.2⟩ ⟨hb.1, hb.2.imp fun _ h => h.2⟩)
  refine ⟨⟨M3.one, ⟨-3, 0, 0⟩⟩, _, _, _, v, M3.IsRot.one, ha, hb, by norm_num, by norm_num, fun e => ?_, hv⟩
  rw [V3.ext_iff] at e
  simp only [lin] at e
  norm_num at e

end Verif.Geo
