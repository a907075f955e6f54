import Verif.Props.FloatDriftGraph
import Verif.Props.FloatRoundingExample
import Verif.Props.FloatGraphExact

/-!
# C112: a camera that moves, with numbers of 24 bits and with exact numbers
-/

namespace Verif.Akaze.Unrounded

open Verif.Bicubic (Flt)
open ExFloat (fdiv fsqrt)
open Verif.Geo
open Verif.Geo.Rounded
open P3P

theorem div_length {x y z : Flt} (h : ∀ v, x ≠ .num v) :
    fdiv x (fsqrt (((x.mul x).add (y.mul y)).add (z.mul z))) = .nan ∧
      fdiv x (fsqrt (((y.mul y).add (x.mul x)).add (z.mul z))) = .nan ∧
      fdiv x (fsqrt (((y.mul y).add (z.mul z)).add (x.mul x))) = .nan := by
  rcases x with _ | s | v
  · simp [fdiv]
  · rcases y with _ | t | v <;> rcases z with _ | t' | v' <;>
      simp [fdiv, Flt.mul, Flt.add, fsqrt]
  · exact absurd rfl (h v)

theorem length_bad {x y z : Flt} (h : ∀ v, x ≠ .num v) (v : ℝ) :
    fsqrt (((x.mul x).add (y.mul y)).add (z.mul z)) ≠ .num v ∧
      fsqrt (((y.mul y).add (x.mul x)).add (z.mul z)) ≠ .num v ∧
      fsqrt (((y.mul y).add (z.mul z)).add (x.mul x)) ≠ .num v := by
  rcases x with _ | s | w
  · rcases y with _ | t | w <;> rcases z with _ | t' | w' <;>
      simp [Flt.mul, Flt.add, fsqrt]
  · rcases y with _ | t | w <;> rcases z with _ | t' | w' <;>
      simp [Flt.mul, Flt.add, fsqrt]
  · exact absurd rfl (h w)

theorem nan_diag {d a b c : Unrounded} (h : d = (Flt.nan : Flt)) : ieee.NotNumber (d * a + b * c) := by
  subst h
  intro x
  show Flt.add (Flt.mul .nan a) (Flt.mul b c) ≠ _
  simp [Flt.mul, Flt.add]

theorem eq_zero_num {a : Unrounded} (h : FloatOps.eq a 0 = true) : ∃ x, a = num x := by
  simp only [FloatOps.eq, Bool.and_eq_true] at h
  rcases a with _ | s | x
  · exact absurd h.1 (fun h => ((ieee.le _ _).1 h : Flt.Le .nan (.num 0)))
  · cases s
    · exact absurd h.1 (fun h => ((ieee.le _ _).1 h : Flt.Le (.inf false) (.num 0)))
    · exact absurd h.2 (fun h => ((ieee.le _ _).1 h : Flt.Le (.num 0) (.inf true)))
  · exact ⟨x, rfl⟩

/-- Without rounding every exponential made of numbers is a rotation. -/
theorem exp_within : ExpWithin ieee 0 := by
  intro w hw
  by_cases hx : ∃ v, w.x = num v
  · by_cases hy : ∃ v, w.y = num v
    · by_cases hz : ∃ v, w.z = num v
      · obtain ⟨x, hx⟩ := hx
        obtain ⟨y, hy⟩ := hy
        obtain ⟨z, hz⟩ := hz
        have : w = numV ⟨x, y, z⟩ := by ext <;> assumption
        rw [this, fexpRot_num]
        exact ⟨_, expRot ⟨x, y, z⟩, ⟨⟨rfl, rfl, rfl⟩, ⟨rfl, rfl, rfl⟩, rfl, rfl, rfl⟩, expRot_isRot _, Near.refl _⟩
      · exact absurd (bad w (.inr (.inr fun v h => hz ⟨v, h⟩))) hw
    · exact absurd (bad w (.inr (.inl fun v h => hy ⟨v, h⟩))) hw
  · exact absurd (bad w (.inl fun v h => hx ⟨v, h⟩)) hw
where
  bad (w : V3 Unrounded) (h : BadV ieee w) : BadM ieee (fexpRot w) := by
    have hq : ¬ FloatOps.eq (fnorm w) 0 = true := by
      intro hq
      obtain ⟨v, hv⟩ := eq_zero_num hq
      rcases h with h | h | h
      · exact (length_bad h v).1 hv
      · exact (length_bad h v).2.1 hv
      · exact (length_bad h v).2.2 hv
    unfold fexpRot
    rw [if_neg hq]
    rcases h with h | h | h
    · exact .inl (.inl (nan_diag (div_length h).1))
    · exact .inr (.inl (.inr (.inl (nan_diag (div_length h).2.1))))
    · exact .inr (.inr (.inr (.inr (nan_diag (div_length h).2.2))))

end Verif.Akaze.Unrounded

namespace Verif.Geo.Rounded

open Verif.Akaze
open Verif.Bicubic (Flt)
open ExFloat (F32 toF)

namespace ExDrift

open ExRounding

theorem fineRot : FineRot ((2 : ℝ) ^ (-23 : ℤ)) ((2 : ℝ) ^ (-149 : ℤ)) (2 ^ 100) := by
  constructor <;> norm_num

theorem rigid : poseR.Rigid := by
  constructor
  · simp only [lin, poseR]; norm_num
  · simp only [lin, poseR]; norm_num

theorem exact_pose : NearIso 0 0 poseR poseR := ⟨Near.refl _, by
  rw [show poseR.t.sub poseR.t = V3.zero by lin3]; exact norm_le_of le_rfl (by simp [lin])⟩

theorem length_pose : poseR.t.norm ≤ 7 := norm_le_of (by norm_num) (by simp [lin, poseR]; norm_num)

/-- **C112** The product and the inverse of a pose of 24 bits. -/
example : (∃ S, HasIso ExFloat.ieee (fisoMul pose pose) S ∧ NearIso (1 / 500000) (1 / 100000) S (poseR.mul poseR)) ∧
    (∃ S, HasIso ExFloat.ieee (finv pose) S ∧ NearIso 0 (1 / 100000) S poseR.inv) := by
  constructor
  · obtain ⟨S, hS, n⟩ := C112_product ExFloat.accurate fineRot has_pose has_pose rigid rigid exact_pose exact_pose le_rfl
      (by norm_num) (by norm_num) (L := 7) (by norm_num) (by norm_num) length_pose length_pose
    exact ⟨S, hS, n.1.mono (by norm_num), n.2.trans (by norm_num)⟩
  · obtain ⟨S, hS, n⟩ := C112_inverse ExFloat.accurate fineRot has_pose rigid exact_pose le_rfl
      (by norm_num) (L := 7) (by norm_num) (by norm_num) length_pose
    exact ⟨S, hS, n.1, n.2.trans (by norm_num)⟩

/-- **C112** The pose times its inverse. -/
example : ∃ S, HasIso ExFloat.ieee (fisoMul pose (finv pose)) S ∧ NearIso (1 / 500000) (1 / 40000) S Iso.one := by
  obtain ⟨S, hS, n⟩ := C112_identity ExFloat.accurate fineRot has_pose rigid exact_pose.1 le_rfl
    (by norm_num) (L := 7) (by norm_num) (by norm_num) length_pose
  exact ⟨S, hS, n.1.mono (by norm_num), n.2.trans (by norm_num)⟩

theorem far (k : Nat) : (exactChain poseR (fun _ => poseR) k).t.norm ≤ 7 * (k + 1) := by
  induction k with
  | zero => exact length_pose.trans (by norm_num)
  | succ k ih =>
    show (poseR.mul _).t.norm ≤ _
    have h := Quat.norm_add_le (poseR.rot.mulVec (exactChain poseR (fun _ => poseR) k).t) poseR.t
    have h1 : (poseR.rot.mulVec (exactChain poseR (fun _ => poseR) k).t).norm = (exactChain poseR (fun _ => poseR) k).t.norm :=
      norm_rotated rigid _
    rw [h1] at h
    have := length_pose
    push_cast
    refine le_trans h ?_
    linarith

/-- **C112** A camera that goes a hundred times the same way. -/
example : ∃ S, HasIso ExFloat.ieee (chain pose (fun _ => pose) 100) S ∧
    NearIso (1 / 7000) (1 / 5) S (exactChain poseR (fun _ => poseR) 100) := by
  obtain ⟨S, hS, n⟩ := C112_steps (P := fun _ => poseR) (X := fun _ => poseR) ExFloat.accurate fineRot has_pose rigid exact_pose
    (fun _ => has_pose) (fun _ => rigid) (fun _ => exact_pose) le_rfl (by norm_num) le_rfl (L := 707) (by norm_num) (by norm_num)
    (fun _ => length_pose.trans (by norm_num)) 100 (fun k hk => (far k).trans (by
      have : (k : ℝ) ≤ 100 := by exact_mod_cast hk
      linarith)) (by norm_num) (by norm_num)
  exact ⟨S, hS, n.1.mono (by norm_num), n.2.trans (by norm_num)⟩

theorem sinCos : SinCos ExFloat.ieee ((2 : ℝ) ^ (-23 : ℤ)) := by
  have key : ∀ x : ℝ, |x| ≤ 1 → ∃ s, (toF (.num x)).1 = .num s ∧ |s - x| ≤ 2 * (2 : ℝ) ^ (-23 : ℤ) := by
    intro x hx
    obtain ⟨s, hs, e⟩ := ExFloat.accurate.rnd x (hx.trans (by norm_num))
    refine ⟨s, hs, e.trans ?_⟩
    have : (2 : ℝ) ^ (-23 : ℤ) * |x| ≤ (2 : ℝ) ^ (-23 : ℤ) * 1 := mul_le_mul_of_nonneg_left hx (by positivity)
    have : (2 : ℝ) ^ (-149 : ℤ) ≤ (2 : ℝ) ^ (-23 : ℤ) := zpow_le_zpow_right₀ (by norm_num) (by norm_num)
    linarith
  constructor
  · intro a x ha
    change a.1 = .num x at ha
    show ∃ s, (ExFloat.lift1 Real.sin a).1 = .num s ∧ _
    unfold ExFloat.lift1
    simp only [ha]
    exact key _ (Real.abs_sin_le_one x)
  · intro a x ha
    change a.1 = .num x at ha
    show ∃ s, (ExFloat.lift1 Real.cos a).1 = .num s ∧ _
    unfold ExFloat.lift1
    simp only [ha]
    exact key _ (Real.abs_cos_le_one x)

/-- **C112** A turn by seven radians about the axis (2, 3, 6). -/
example : RotWithin ExFloat.ieee (1 / 14000) (fexpRot (vec 2 3 6)) ∧ ∃ F, HasM ExFloat.ieee (fexpRot (vec 2 3 6)) F ∧
    Near (1 / 10000) F (expRot (vecR 2 3 6)) := by
  have hn : (vecR 2 3 6).norm = 7 := norm_of (by norm_num) (by simp [lin, vecR]; norm_num)
  obtain ⟨h, F, hF, n⟩ := C112_exp ExFloat.accurate sinCos
    (has_vec (a := 2) (b := 3) (c := 6) (by norm_num) (by norm_num) (by norm_num))
    (by rw [hn]; constructor <;> norm_num)
  rw [hn] at n
  exact ⟨h.mono (by norm_num), F, hF, n.mono (by norm_num)⟩

end ExDrift

namespace ExGraph

open Verif.Akaze.Unrounded
open P3P
open Sfm (Data Recon Oracle)
open Sfm.ExGraph (turned shifted turned_rigid shifted_rigid)

theorem within_num {X : M3 ℝ} (h : X.IsRot) : RotWithin ieee 0 (numM X) :=
  ⟨X, X, ⟨⟨rfl, rfl, rfl⟩, ⟨rfl, rfl, rfl⟩, rfl, rfl, rfl⟩, h, Near.refl _⟩

theorem fineRot0 : FineRot 0 0 16 := by constructor <;> norm_num

/-- **C112** Without rounding the optimisers keep rotations, whatever they are given. -/
example (rate : Unrounded) (n : Nat) (lms : List (V3 Unrounded × V4 Unrounded))
    (h : ¬ BadIso ieee (fsingleViewL2 infinity (numIso (turned 1)) rate n lms)) :
    RotWithin ieee 0 (fsingleViewL2 infinity (numIso (turned 1)) rate n lms).rot := by
  have := (C112_single_view (unrounded_accurate 16) fineRot0 exp_within le_rfl (by norm_num)
    (within_num (turned_rigid 1)) infinity 0 rate n lms (by norm_num)).2 h
  exact this.mono (by norm_num)

example (rate : Unrounded) (n : Nat) (os : List (FBearings Unrounded))
    (h : ¬ BadIso ieee (fthreeViewL2 infinity (numIso (turned 1), numIso (shifted 2)) rate n os).1) :
    RotWithin ieee 0 (fthreeViewL2 infinity (numIso (turned 1), numIso (shifted 2)) rate n os).1.rot := by
  have := (C112_three_views (unrounded_accurate 16) fineRot0 exp_within le_rfl (by norm_num)
    (poses := (numIso (turned 1), numIso (shifted 2))) (within_num (turned_rigid 1)) (within_num (shifted_rigid 2)) infinity 0 rate
    n os (by norm_num) _ (by simp)).1 h
  exact this.mono (by norm_num)

theorem exp_num_within (w : V3 Unrounded) (hw : ¬ BadV ieee w) : RotWithin ieee 0 (fexpRot w) := by
  have h : ∀ {a : Unrounded}, ¬ ieee.NotNumber a → ∃ x, a = num x := fun h => by
    unfold Ieee.NotNumber at h
    push Not at h
    exact h
  unfold BadV at hw
  push Not at hw
  obtain ⟨x, hx⟩ := h hw.1
  obtain ⟨y, hy⟩ := h hw.2.1
  obtain ⟨z, hz⟩ := h hw.2.2
  have : w = numV ⟨x, y, z⟩ := by ext <;> assumption
  rw [this, fexpRot_num]
  exact within_num (expRot_isRot _)

/-- **C112** The reconstruction of the example of C110, optimised with any settings. -/
example (s : Sfm.Settings) (ω : Oracle (Iso Unrounded)) (ω' : Nat → Oracle (Iso Unrounded)) (d' : Data (Iso Unrounded)) (b : Bool)
    (h : (d5 (numIso (turned 1))).optimizeReconstruction (fun _ _ => oracle ω) ω' s 0 = some (d', b)) :
    ∀ r R, d'.recons.get r = some R → ∀ v V, R.views.get v = some V → RotWithin ieee 0 V.pose.rot := by
  intro r R hR v V hV
  refine (C112_optimise (unrounded_accurate 16) bits fineRot0 (ε := 0) (e := 0) exp_num_within le_rfl (by norm_num)
    (fun _ _ => rfl) (Sfm.reachable_consistent (reach5 _)) ?_ (by norm_num) h r R hR v V hV).mono (by norm_num)
  intro r R hR v V hV
  have h1 : (r, R) ∈ [(0, R5 (numIso (turned 1)))] := FMap.mem_of_get hR
  simp only [List.mem_singleton, Prod.mk.injEq] at h1
  obtain ⟨-, rfl⟩ := h1
  have h2 : (v, V.pose) ∈ [(0, numIso Iso.one), (1, numIso (turned 1)), (2, numIso (shifted 2))] :=
    List.mem_map_of_mem (f := fun e : Nat × Sfm.View (Iso Unrounded) => (e.1, e.2.pose)) (FMap.mem_of_get hV)
  simp only [List.mem_cons, Prod.mk.injEq, List.not_mem_nil, or_false] at h2
  rcases h2 with ⟨-, h⟩ | ⟨-, h⟩ | ⟨-, h⟩ <;> rw [h]
  · exact within_num M3.IsRot.one
  · exact within_num (turned_rigid 1)
  · exact within_num (shifted_rigid 2)

end ExGraph

end Verif.Geo.Rounded
