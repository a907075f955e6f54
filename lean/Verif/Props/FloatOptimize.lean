import Verif.Lemmas.FloatOptimize
import Verif.Props.FloatPinholeExample

/-!
# The pose optimisers with floating point numbers (C108)

Landmarks with NaN in a bearing do not move a pose, and a pose that is not finite never becomes finite.
-/

namespace Verif.Geo.Rounded

open Verif.Akaze
open Verif.Bicubic (Flt)
open Verif.Akaze.FloatOps (lit lt le abs sqrt)
open Verif.Akaze.FloatBits (isFinite isNan isSignNegative)
open P3P

variable {D : Type} [FloatOps D] [FloatBits D] {J : Ieee D}

/-! ### Landmarks with NaN add nothing to the gradients -/

theorem hasNan_iff (B : IeeeBits J) {v : V3 D} : hasNan v = true ↔ NanV J v := by
  unfold hasNan NanV
  simp only [Bool.or_eq_true, B.isNan, or_assoc]

omit [FloatBits D] in
theorem same_foldl_add {gs : List (FTangent D)} {a b : FTangent D} (h : SameT J a b) :
    SameT J (gs.foldl FTangent.add a) (gs.foldl FTangent.add b) := by
  induction gs generalizing a b with
  | nil => exact h
  | cons g gs ih => exact ih ⟨same_fadd h.1 (SameVal.refl _), same_fadd h.2 (SameVal.refl _)⟩

omit [FloatBits D] in
theorem add_zeroT {a g : FTangent D} (hg : ZeroT J g) : SameT J (a.add g) a :=
  ⟨⟨add_zero_val hg.1.1, add_zero_val hg.1.2.1, add_zero_val hg.1.2.2⟩,
    ⟨add_zero_val hg.2.1, add_zero_val hg.2.2.1, add_zero_val hg.2.2.2⟩⟩

omit [FloatBits D] in
theorem SameT.trans {a b c : FTangent D} (h : SameT J a b) (h' : SameT J b c) : SameT J a c :=
  ⟨h.1.trans h'.1, h.2.trans h'.2⟩

omit [FloatBits D] in
/-- Terms that are zero may be left out of a sum. -/
theorem sum_drop {α : Type} (f : α → Option (FTangent D)) (bad : α → Bool) (l : List α)
    (h : ∀ m ∈ l, bad m = true → ∀ g, f m = some g → ZeroT J g) :
    SameT J (fsum (l.filterMap f)) (fsum ((l.filter fun m => !bad m).filterMap f)) := by
  unfold fsum
  generalize (FTangent.zero : FTangent D) = z
  induction l generalizing z with
  | nil => exact ⟨SameVal.refl _, SameVal.refl _⟩
  | cons m l ih =>
    have ih := ih (fun m' h' => h m' (List.mem_cons_of_mem _ h'))
    cases hb : bad m with
    | false =>
      rw [List.filter_cons_of_pos (by rw [hb]; rfl)]
      cases hf : f m with
      | none => rw [List.filterMap_cons_none hf, List.filterMap_cons_none hf]; exact ih z
      | some g => rw [List.filterMap_cons_some hf, List.filterMap_cons_some hf]; exact ih _
    | true =>
      rw [List.filter_cons_of_neg (by rw [hb]; decide)]
      cases hf : f m with
      | none => rw [List.filterMap_cons_none hf]; exact ih z
      | some g =>
        rw [List.filterMap_cons_some hf]
        exact (same_foldl_add (add_zeroT (h m (by simp) hb g hf))).trans (ih z)

/-- **C108** The sum of the gradients of one view is, up to the sign of zeros, the sum over the landmarks without NaN in the
bearing. -/
theorem C108_nan_landmarks_single (B : IeeeBits J) (p : Iso D) (ms : List (V3 D × V4 D)) :
    SameT J (fsum (flandmarkDeltas p ms)) (fsum (flandmarkDeltas p (ms.filter fun m => !hasNan m.1))) := by
  refine sum_drop (flandmarkDelta p) (fun m => hasNan m.1) ms fun m _ hb g hg => ?_
  rcases nan_delta B p ((hasNan_iff B).1 hb) with h | h
  · rw [h] at hg; cases hg
  · rw [h] at hg
    rw [← Option.some.inj hg]
    exact zeroT_zero

theorem nan_bearings (B : IeeeBits J) (p : Iso D × Iso D) {o : FBearings D} (h : o.hasNan = true) :
    ZeroT J (flandmarkGradients p o).1 ∧ ZeroT J (flandmarkGradients p o).2 := by
  unfold FBearings.hasNan at h
  simp only [Bool.or_eq_true, hasNan_iff B] at h
  refine nan_gradients B _ _ ?_ third_val twoThirds_val
  rcases h with (h | h) | h
  · exact .inl h
  · exact .inr (.inl (nan_mulVec h))
  · exact .inr (.inr (nan_mulVec h))

/-- **C108** The same for the gradients of both poses of three views. -/
theorem C108_nan_landmarks_three (B : IeeeBits J) (p : Iso D × Iso D) (os : List (FBearings D)) :
    SameT J (fsum (ffirstGradients p os)) (fsum (ffirstGradients p (os.filter fun o => !o.hasNan))) ∧
    SameT J (fsum (fsecondGradients p os)) (fsum (fsecondGradients p (os.filter fun o => !o.hasNan))) := by
  have e : ∀ (f : FBearings D → FTangent D) (l : List (FBearings D)), l.map f = l.filterMap fun o => some (f o) := by
    intro f l
    rw [← List.filterMap_eq_map]
    rfl
  unfold ffirstGradients fsecondGradients
  simp only [e]
  exact ⟨sum_drop _ FBearings.hasNan os fun o _ hb g hg => Option.some.inj hg ▸ (nan_bearings B p hb).1,
    sum_drop _ FBearings.hasNan os fun o _ hb g hg => Option.some.inj hg ▸ (nan_bearings B p hb).2⟩

/-! ### If all landmarks have NaN -/

theorem nan_deltas (B : IeeeBits J) (p : Iso D) {ms : List (V3 D × V4 D)} (h : ∀ m ∈ ms, NanV J m.1) :
    ∀ g ∈ flandmarkDeltas p ms, g = FTangent.zero := by
  intro g hg
  obtain ⟨m, hm, hg⟩ := List.mem_filterMap.1 hg
  rcases nan_delta B p (h m hm) with h | h
  · rw [h] at hg; cases hg
  · rw [h] at hg; exact (Option.some.inj hg).symm

/-- **C108** If all landmarks have NaN in their bearings, the second optimiser of one view returns the pose, up to the sign of
zeros. -/
theorem C108_all_nan_single_l2 (B : IeeeBits J) (top : D) {pose : Iso D} (hp : FiniteIso J pose) {rate : D}
    (hr : ∃ x, J.val rate = .num x) (n : Nat) {ms : List (V3 D × V4 D)} (h : ∀ m ∈ ms, NanV J m.1) :
    SameIso J (fsingleViewL2 top pose rate n ms) pose := by
  unfold fsingleViewL2
  split
  · exact SameIso.refl _
  rename_i hne
  refine optimizeLoop_inv (inv := fun p => SameIso J p pose) (fun p hs => ?_) n _ 0 (SameIso.refl _)
  have hpos : 0 < ms.length := by
    rcases ms with _ | ⟨m, ms⟩
    · exact absurd rfl hne
    · exact Nat.succ_pos _
  obtain ⟨k, hk, -⟩ := inv_count (J := J) hpos
  refine (step_zero (((zeroT_sum fun g hg => ?_).scale ⟨k, hk⟩).scale hr) (hp.same hs)).trans hs
  rw [nan_deltas B p h g hg]
  exact zeroT_zero

theorem nan_first (B : IeeeBits J) (p : Iso D × Iso D) {os : List (FBearings D)} (h : ∀ o ∈ os, o.hasNan = true) :
    (∀ g ∈ ffirstGradients p os, ZeroT J g) ∧ ∀ g ∈ fsecondGradients p os, ZeroT J g := by
  constructor
  · intro g hg
    obtain ⟨o, ho, rfl⟩ := List.mem_map.1 hg
    exact (nan_bearings B p (h o ho)).1
  · intro g hg
    obtain ⟨o, ho, rfl⟩ := List.mem_map.1 hg
    exact (nan_bearings B p (h o ho)).2

omit [FloatBits D] in
theorem same_invPoses {p q : Iso D × Iso D} (h : SamePoses J p q) : SamePoses J (finvPoses p) (finvPoses q) :=
  ⟨same_inv h.1, same_inv h.2⟩

omit [FloatBits D] in
theorem move_zero {p q : Iso D × Iso D} {d e : FTangent D} (hd : ZeroT J d) (he : ZeroT J e)
    (hq : FiniteIso J q.1 ∧ FiniteIso J q.2) (h : SamePoses J p q) : SamePoses J (fmovePoses p d e) q :=
  ⟨(step_zero hd (hq.1.same h.1)).trans h.1, (step_zero he (hq.2.same h.2)).trans h.2⟩

/-- **C108** The second optimiser of three views then returns what two inversions make of the poses. -/
theorem C108_all_nan_three_l2 (B : IeeeBits J) (top : D) {poses : Iso D × Iso D}
    (hp : FiniteIso J (finv poses.1) ∧ FiniteIso J (finv poses.2)) {rate : D} (hr : ∃ x, J.val rate = .num x) (n : Nat)
    {os : List (FBearings D)} (hne : os ≠ []) (h : ∀ o ∈ os, o.hasNan = true) :
    SamePoses J (fthreeViewL2 top poses rate n os) (finvPoses (finvPoses poses)) := by
  unfold fthreeViewL2
  rw [if_neg (by rwa [List.isEmpty_iff])]
  refine same_invPoses ?_
  refine optimizeLoop_inv (inv := fun p => SamePoses J p (finvPoses poses)) (fun p hs => ?_) n _ 0
    ⟨SameIso.refl _, SameIso.refl _⟩
  obtain ⟨k, hk, h0, h1⟩ := inv_count (J := J) (List.length_pos_iff.2 hne)
  have hs' := mul_fraction hk h0 h1 hr
  exact move_zero ((zeroT_sum (nan_first B p h).1).scale hs') ((zeroT_sum (nan_first B p h).2).scale hs') hp hs

theorem adaptive_zero (B : IeeeBits J) {gs : List (FTangent D)} (hne : gs ≠ []) (h : ∀ g ∈ gs, ZeroT J g) :
    ZeroT J (fadaptiveStep gs) := by
  obtain ⟨k, hk, -⟩ := inv_count (J := J) (List.length_pos_iff.2 hne)
  unfold fadaptiveStep
  exact (((zeroT_sum h).scale ⟨k, hk⟩).scaleTranslation (finiteOrZero_num B _)).scaleRotation (finiteOrZero_num B _)

/-- **C108** And so does the adaptive one. -/
theorem C108_all_nan_adaptive (B : IeeeBits J) {poses : Iso D × Iso D}
    (hp : FiniteIso J (finv poses.1) ∧ FiniteIso J (finv poses.2)) (n : Nat) {os : List (FBearings D)} (hne : os ≠ [])
    (h : ∀ o ∈ os, o.hasNan = true) : SamePoses J (fthreeViewAdaptive poses n os) (finvPoses (finvPoses poses)) := by
  unfold fthreeViewAdaptive
  rw [if_neg (by rwa [List.isEmpty_iff])]
  refine same_invPoses ?_
  have key : ∀ p, SamePoses J p (finvPoses poses) →
      SamePoses J ((List.replicate n ()).foldl (fun p _ => fthreeStepAdaptive os p) p) (finvPoses poses) := by
    induction n with
    | zero => exact fun p h => h
    | succ n ih =>
      intro p hs
      refine ih _ (move_zero (adaptive_zero B ?_ (nan_first B p h).1) (adaptive_zero B ?_ (nan_first B p h).2) hp hs)
      · unfold ffirstGradients; simpa using hne
      · unfold fsecondGradients; simpa using hne
  exact key _ ⟨SameIso.refl _, SameIso.refl _⟩

/-! ### The optimisers with weights -/

theorem stepL1_zero (B : IeeeBits J) (hz : ZeroOverZero J) {tscale eps rate : D} {x e : ℝ}
    (ht : J.val (tscale * eps) = .num x) (hx : 0 < x) (hx' : x ≤ 2 ^ 24) (he : J.val eps = .num e) (he0 : 0 < e)
    (he' : e ≤ 2 ^ 24) (hr : ∃ y, J.val rate = .num y) {gs : List (FTangent D)} (hne : gs ≠ [])
    (h : ∀ g ∈ gs, ZeroT J g) : ZeroT J (fstepL1 tscale eps rate gs) := by
  have h1 : ∀ g ∈ gs.map FTangent.l1, ZeroT J g := by
    intro g hg
    obtain ⟨g, hg', rfl⟩ := List.mem_map.1 hg
    exact zero_l1 B hz (h g hg')
  unfold fstepL1
  simp only
  exact (((zeroT_sum h1).scale hr).scaleTranslation
    (harmonic_val (fun g : FTangent D => fnorm g.translation + tscale * eps) hx hx' hne fun g hg => by
      rw [zero_add_val (h g hg).1.norm, ht])).scaleRotation
    (harmonic_val (fun g : FTangent D => fnorm g.rotation + eps) he0 he' hne fun g hg => by
      rw [zero_add_val (h g hg).2.norm, he])

/-- **C108** The first optimiser of one view does the same if one of the points is not at infinity, the pose has a
translation and the weight `epsilon` is positive. -/
theorem C108_all_nan_single_l1 (B : IeeeBits J) (hz : ZeroOverZero J) (top : D) {pose : Iso D} (hp : FiniteIso J pose)
    {eps rate : D} {x e : ℝ} (ht : J.val (fnorm pose.t * eps) = .num x) (hx : 0 < x) (hx' : x ≤ 2 ^ 24)
    (he : J.val eps = .num e) (he0 : 0 < e) (he' : e ≤ 2 ^ 24) (hr : ∃ y, J.val rate = .num y) (n : Nat)
    {ms : List (V3 D × V4 D)} (h : ∀ m ∈ ms, NanV J m.1)
    (hsome : ∀ p, SameIso J p pose → ∃ m ∈ ms, fpoint (ftransform p m.2) ≠ none) :
    SameIso J (fsingleViewL1 top pose eps rate n ms) pose := by
  unfold fsingleViewL1
  split
  · exact SameIso.refl _
  refine optimizeLoop_inv (inv := fun p => SameIso J p pose) (fun p hs => ?_) n _ 0 (SameIso.refl _)
  refine (step_zero (stepL1_zero B hz (x := x) ?_ hx hx' he he0 he' hr ?_ fun g hg => ?_) (hp.same hs)).trans hs
  · rw [same_mul (same_norm hs.2) rfl, ht]
  · obtain ⟨m, hm, hq⟩ := hsome p hs
    cases e : fpoint (ftransform p m.2) with
    | none => exact absurd e hq
    | some q =>
      refine List.ne_nil_of_mem (a := fworldPoseGradient q m.1) (List.mem_filterMap.2 ⟨m, hm, ?_⟩)
      unfold flandmarkDelta
      rw [e]
      rfl
  · rw [nan_deltas B p h g hg]
    exact zeroT_zero

/-- **C108** And the first one of three views. -/
theorem C108_all_nan_three_l1 (B : IeeeBits J) (hz : ZeroOverZero J) (top : D) {poses : Iso D × Iso D}
    (hp : FiniteIso J (finv poses.1) ∧ FiniteIso J (finv poses.2)) {eps rate : D} {x e : ℝ}
    (ht : J.val ((0 + fnorm (finv poses.1).t + fnorm (finv poses.2).t) * eps) = .num x) (hx : 0 < x) (hx' : x ≤ 2 ^ 24)
    (he : J.val eps = .num e) (he0 : 0 < e) (he' : e ≤ 2 ^ 24) (hr : ∃ y, J.val rate = .num y) (n : Nat)
    {os : List (FBearings D)} (hne : os ≠ []) (h : ∀ o ∈ os, o.hasNan = true) :
    SamePoses J (fthreeViewL1 top poses eps rate n os) (finvPoses (finvPoses poses)) := by
  unfold fthreeViewL1
  rw [if_neg (by rwa [List.isEmpty_iff])]
  refine same_invPoses ?_
  refine optimizeLoop_inv (inv := fun p => SamePoses J p (finvPoses poses)) (fun p hs => ?_) n _ 0
    ⟨SameIso.refl _, SameIso.refl _⟩
  have ht' : J.val ((0 + fnorm p.1.t + fnorm p.2.t) * eps) = .num x := by
    rw [same_mul (same_add (same_add rfl (same_norm hs.1.2)) (same_norm hs.2.2)) rfl]
    exact ht
  refine move_zero (stepL1_zero B hz ht' hx hx' he he0 he' hr ?_ (nan_first B p h).1)
    (stepL1_zero B hz ht' hx hx' he he0 he' hr ?_ (nan_first B p h).2) hp hs
  · unfold ffirstGradients; simpa using hne
  · unfold fsecondGradients; simpa using hne

/-! ### A pose that is not finite stays so -/

omit [FloatBits D] in
theorem bad_mul {A B : M3 D} (h : BadM J B) : BadM J (fmul A B) := by
  have col : ∀ {c : V3 D}, BadV J c → J.NotNumber (fmulVec A c).x := fun h => (worst_mulVec h).1
  rcases h with (h | h | h) | (h | h | h) | (h | h | h)
  · exact .inl (.inl (col (.inl h)))
  · exact .inl (.inr (.inl (col (.inl h))))
  · exact .inl (.inr (.inr (col (.inl h))))
  · exact .inl (.inl (col (.inr (.inl h))))
  · exact .inl (.inr (.inl (col (.inr (.inl h)))))
  · exact .inl (.inr (.inr (col (.inr (.inl h)))))
  · exact .inl (.inl (col (.inr (.inr h))))
  · exact .inl (.inr (.inl (col (.inr (.inr h)))))
  · exact .inl (.inr (.inr (col (.inr (.inr h)))))

omit [FloatBits D] in
theorem bad_isoMul {a p : Iso D} (h : BadIso J p) : BadIso J (fisoMul a p) := by
  rcases h with h | h
  · exact .inl (bad_mul h)
  · exact .inr (bad_add (.inr (worst_mulVec h).bad))

/-- **C108** If a number of the pose is NaN or infinite, this is so for the returned pose: no optimiser of one view turns it
into a pose that looks valid. -/
theorem C108_bad_pose_single {pose : Iso D} (h : BadIso J pose) (top eps rate : D) (n : Nat) (ms : List (V3 D × V4 D)) :
    BadIso J (fsingleViewL1 top pose eps rate n ms) ∧ BadIso J (fsingleViewL2 top pose rate n ms) := by
  unfold fsingleViewL1 fsingleViewL2
  constructor
  · split
    · exact h
    · exact optimizeLoop_inv (inv := fun p => BadIso J p) (fun p hp => bad_isoMul hp) n _ 0 h
  · split
    · exact h
    · exact optimizeLoop_inv (inv := fun p => BadIso J p) (fun p hp => bad_isoMul hp) n _ 0 h

/-- **C108** The same for the optimisers of three views, for each of the poses. -/
theorem C108_bad_pose_three (top eps rate : D) (n : Nat) (os : List (FBearings D)) (poses : Iso D × Iso D) :
    ∀ q, q = fthreeViewL1 top poses eps rate n os ∨ q = fthreeViewL2 top poses rate n os ∨
      q = fthreeViewAdaptive poses n os →
      (BadIso J poses.1 → BadIso J q.1) ∧ (BadIso J poses.2 → BadIso J q.2) := by
  have inv : ∀ {p : Iso D}, BadIso J p → BadIso J (finv p) := fun h => .inr (bad_inv h)
  have ad : ∀ (m : Nat) (p : Iso D × Iso D),
      (BadIso J p.1 → BadIso J ((List.replicate m ()).foldl (fun p _ => fthreeStepAdaptive os p) p).1) ∧
      (BadIso J p.2 → BadIso J ((List.replicate m ()).foldl (fun p _ => fthreeStepAdaptive os p) p).2) := by
    intro m
    induction m with
    | zero => exact fun p => ⟨id, id⟩
    | succ m ih => exact fun p => ⟨fun h => (ih _).1 (bad_isoMul h), fun h => (ih _).2 (bad_isoMul h)⟩
  rintro q (rfl | rfl | rfl)
  · unfold fthreeViewL1
    split
    · exact ⟨id, id⟩
    · exact ⟨fun h => inv (optimizeLoop_inv (inv := fun p : Iso D × Iso D => BadIso J p.1) (fun p hp => bad_isoMul hp) n _ 0
        (inv h)), fun h => inv (optimizeLoop_inv (inv := fun p : Iso D × Iso D => BadIso J p.2)
        (fun p hp => bad_isoMul hp) n _ 0 (inv h))⟩
  · unfold fthreeViewL2
    split
    · exact ⟨id, id⟩
    · exact ⟨fun h => inv (optimizeLoop_inv (inv := fun p : Iso D × Iso D => BadIso J p.1) (fun p hp => bad_isoMul hp) n _ 0
        (inv h)), fun h => inv (optimizeLoop_inv (inv := fun p : Iso D × Iso D => BadIso J p.2)
        (fun p hp => bad_isoMul hp) n _ 0 (inv h))⟩
  · unfold fthreeViewAdaptive
    split
    · exact ⟨id, id⟩
    · exact ⟨fun h => inv ((ad n _).1 (inv h)), fun h => inv ((ad n _).2 (inv h))⟩

/-! ### Points at infinity -/

omit [FloatBits D] in
theorem nan_exp {w : V3 D} (h : J.val w.x = .nan) : J.val (fexpRot w).m11 = .nan := by
  have hn : J.val (fnorm w) = .nan := nan_sqrt (nan_fdot (.inl (.inl h)))
  unfold fexpRot
  rw [if_neg]
  · show J.val (_ / _ * (_ / _) + _) = _
    exact nan_add (.inl (nan_mul (.inl (nan_div (.inl h)))))
  · simp only [FloatOps.eq, Bool.and_eq_true, not_and]
    intro h'
    rw [nan_le (.inl hn)] at h'
    cases h'

omit [FloatBits D] in
/-- Infinity times zero. -/
theorem inf_times {a b : D} {s : Bool} (ha : J.val a = .inf s) (hb : J.val b = .num 0) : J.val (a * b) = .nan := by
  rw [J.mul, ha, hb]
  simp [Flt.mul, roundedBy]

/-- **C108** If no landmark has a position (all the points are at infinity), the first optimiser of one view returns a pose
that is not a number, where the second one keeps the pose. -/
theorem C108_points_at_infinity (top eps : D) {rate : D} (hr : ∃ x, J.val rate = .num x) {pose : Iso D}
    (hp : FiniteIso J pose) (n : Nat) {ms : List (V3 D × V4 D)} (hne : ms ≠ [])
    (h : ∀ p, SameIso J p pose → ∀ m ∈ ms, fpoint (ftransform p m.2) = none) :
    BadIso J (fsingleViewL1 top pose eps rate (n + 1) ms) ∧ SameIso J (fsingleViewL2 top pose rate (n + 1) ms) pose := by
  have hd : ∀ p, SameIso J p pose → flandmarkDeltas p ms = [] := by
    intro p hs
    unfold flandmarkDeltas
    rw [List.filterMap_eq_nil_iff]
    intro m hm
    unfold flandmarkDelta
    rw [h p hs m hm]
    rfl
  constructor
  · unfold fsingleViewL1
    rw [if_neg (by rwa [List.isEmpty_iff])]
    unfold foptimizeLoop
    simp only
    generalize hk : (if ((List.zipWith ftrack [top, top]
      (fsum ((flandmarkDeltas pose ms).map FTangent.l1)).sizes).any fun x => x.2) = true then 0 else 0 + 1) = k
    rw [if_neg (by
      rw [← hk]
      split <;> decide)]
    refine optimizeLoop_inv (inv := fun p => BadIso J p) (fun p hp => bad_isoMul hp) n _ k ?_
    rw [hd pose (SameIso.refl _)]
    have hinf : ∃ s, J.val (1 / 0 : D) = .inf s := J.div_zero 1 0 1 J.one J.zero one_ne_zero
    obtain ⟨s, hs⟩ := hinf
    have hx : J.val (fstepL1 (fnorm pose.t) eps rate []).rotation.x = .nan := by
      show J.val (1 / 0 * (rate * 0)) = _
      exact inf_times hs (mul_zero_val hr J.zero)
    refine .inl (.inl (.inl (not_of_nan ?_)))
    show J.val (fdot ⟨(fexpRot _).m11, (fexpRot _).m12, (fexpRot _).m13⟩ _) = _
    exact nan_fdot (.inl (.inl (nan_exp hx)))
  · unfold fsingleViewL2
    rw [if_neg (by rwa [List.isEmpty_iff])]
    refine optimizeLoop_inv (inv := fun p => SameIso J p pose) (fun p hs => ?_) _ _ 0 (SameIso.refl _)
    obtain ⟨k, hk, -⟩ := inv_count (J := J) (List.length_pos_iff.2 hne)
    refine (step_zero (((zeroT_sum fun g hg => ?_).scale ⟨k, hk⟩).scale hr) (hp.same hs)).trans hs
    rw [hd p hs] at hg
    cases hg

/-! ### Examples -/

namespace ExOptimize

omit [FloatBits D] in
theorem one_mul_one : J.val ((1 : D) * 1) = .num 1 := (one_mul_val J.one ⟨1, J.one⟩).trans J.one

/-- One step to the side. -/
def pose : Iso D := ⟨fone, ⟨1, 0, 0⟩⟩

omit [FloatBits D] in
theorem pose_finite : FiniteIso J pose :=
  ⟨⟨⟨1, J.one⟩, ⟨0, J.zero⟩, ⟨0, J.zero⟩⟩, ⟨⟨0, J.zero⟩, ⟨1, J.one⟩, ⟨0, J.zero⟩⟩, ⟨⟨0, J.zero⟩, ⟨0, J.zero⟩, ⟨1, J.one⟩⟩,
    ⟨1, J.one⟩, ⟨0, J.zero⟩, ⟨0, J.zero⟩⟩

omit [FloatBits D] in
theorem neg_finite : FiniteV J (fneg (pose : Iso D).t) := by
  refine ⟨⟨-1, ?_⟩, ⟨-0, ?_⟩, ⟨-0, ?_⟩⟩
  · show J.val (-1) = _
    rw [J.neg, J.one]; rfl
  · show J.val (-0) = _
    rw [J.neg, J.zero]; rfl
  · show J.val (-0) = _
    rw [J.neg, J.zero]; rfl

omit [FloatBits D] in
theorem inverse_finite : FiniteIso J (finv pose) := by
  have h := mulVec_one (J := J) (neg_finite (J := J))
  have hf := neg_finite (J := J)
  obtain ⟨a, b, c, -⟩ := pose_finite (J := J)
  refine ⟨a, b, c, ?_⟩
  show FiniteV J (fmulVec fone (fneg pose.t))
  unfold FiniteV
  rw [h.1, h.2.1, h.2.2]
  exact hf

omit [FloatBits D] in
theorem norm_one {v : V3 D} (hx : J.val v.x = .num 1 ∨ J.val v.x = .num (-1)) (hy : J.val v.y = .num 0)
    (hz : J.val v.z = .num 0) : J.val (fnorm v) = .num 1 := by
  have h1 : J.val (fnormSq v) = .num 1 := by
    show J.val (v.x * v.x + v.y * v.y + v.z * v.z) = _
    rw [add_zero_val (mul_zero_val ⟨0, hz⟩ hz), add_zero_val (mul_zero_val ⟨0, hy⟩ hy), J.mul]
    rcases hx with hx | hx
    · rw [hx]
      show J.rnd (1 * 1) = _
      rw [one_mul]; exact J.rnd_val 1 1 J.one
    · rw [hx]
      show J.rnd (-1 * -1) = _
      rw [neg_mul_neg, one_mul]; exact J.rnd_val 1 1 J.one
  unfold fnorm
  rw [J.sqrt_num _ 1 h1, if_neg (by norm_num), Real.sqrt_one]
  exact J.rnd_val 1 1 J.one

/-- A bearing with NaN. -/
def nothing : V3 D := ⟨0 / 0, 0, 1⟩

omit [FloatBits D] in
theorem nothing_nan (hz : ZeroOverZero J) : NanV J nothing := .inl (hz 0 0 J.zero J.zero)

theorem nothing_hasNan (B : IeeeBits J) (hz : ZeroOverZero J) : hasNan (nothing : V3 D) = true :=
  (hasNan_iff B).2 (nothing_nan hz)

/-- Two landmarks with NaN in a bearing. -/
def landmarks : List (FBearings D) := [⟨nothing, ⟨0, 0, 1⟩, ⟨1, 0, 0⟩⟩, ⟨⟨0, 0, 1⟩, ⟨0, 0, 1⟩, nothing⟩]

theorem landmarks_nan (B : IeeeBits J) (hz : ZeroOverZero J) : ∀ o ∈ (landmarks : List (FBearings D)), o.hasNan = true := by
  intro o ho
  simp only [landmarks, List.mem_cons, List.not_mem_nil, or_false] at ho
  rcases ho with rfl | rfl <;> simp [FBearings.hasNan, nothing_hasNan B hz]

example (n : Nat) : SamePoses ExFloat.ieee (fthreeViewL2 1 (pose, pose) 1 n landmarks) (finvPoses (finvPoses (pose, pose))) ∧
    SamePoses ExFloat.ieee (fthreeViewAdaptive (pose, pose) n landmarks) (finvPoses (finvPoses (pose, pose))) :=
  ⟨C108_all_nan_three_l2 ExFloat.bits 1 ⟨inverse_finite, inverse_finite⟩ ⟨1, ExFloat.ieee.one⟩ n (by simp [landmarks])
      (landmarks_nan ExFloat.bits ExFloat.zero_over_zero),
    C108_all_nan_adaptive ExFloat.bits ⟨inverse_finite, inverse_finite⟩ n (by simp [landmarks])
      (landmarks_nan ExFloat.bits ExFloat.zero_over_zero)⟩

omit [FloatBits D] in
theorem tscale : J.val ((0 + fnorm (finv (pose : Iso D)).t + fnorm (finv (pose : Iso D)).t) * 1) = .num 2 := by
  have h := mulVec_one (J := J) (neg_finite (J := J))
  have h0 : J.val (-(0 : D)) = .num 0 := by
    rw [J.neg, J.zero]
    show Flt.num (-0) = _
    rw [neg_zero]
  have hn : J.val (fnorm (finv (pose : Iso D)).t) = .num 1 := by
    refine norm_one (.inr ?_) ?_ ?_
    · refine h.1.trans ?_
      show J.val (-1) = _
      rw [J.neg, J.one]; rfl
    · exact h.2.1.trans h0
    · exact h.2.2.trans h0
  have h2 : J.rnd 2 = .num 2 := J.rnd_val 2 2 val_two
  have hs : J.val (0 + fnorm (finv (pose : Iso D)).t + fnorm (finv (pose : Iso D)).t) = .num 2 := by
    rw [J.add, zero_add_val J.zero, hn]
    show J.rnd (1 + 1) = _
    norm_num
    exact h2
  rw [J.mul, hs, J.one]
  show J.rnd (2 * 1) = _
  rw [mul_one, h2]

example (n : Nat) :
    SamePoses ExFloat.ieee (fthreeViewL1 1 (pose, pose) 1 1 n landmarks) (finvPoses (finvPoses (pose, pose))) :=
  C108_all_nan_three_l1 (poses := (pose, pose)) (x := 2) (e := 1) ExFloat.bits ExFloat.zero_over_zero 1 ⟨inverse_finite, inverse_finite⟩ tscale (by norm_num) (by norm_num)
    ExFloat.ieee.one (by norm_num) (by norm_num) ⟨1, ExFloat.ieee.one⟩ n (by simp [landmarks])
    (landmarks_nan ExFloat.bits ExFloat.zero_over_zero)

example (n : Nat) (w : V4 ExFloat.F32) : SameIso ExFloat.ieee (fsingleViewL2 1 pose 1 n [(nothing, w)]) pose :=
  C108_all_nan_single_l2 ExFloat.bits 1 pose_finite ⟨1, ExFloat.ieee.one⟩ n (by
    intro m hm
    rw [List.mem_singleton.1 hm]
    exact nothing_nan ExFloat.zero_over_zero)

omit [FloatBits D] in
theorem sum4 {a b c d : D} {x y : ℝ} (ha : J.val a = .num x) (hb : J.val b = .num 0) (hc : J.val c = .num 0)
    (hd : J.val d = .num y) (h : x = 0 ∨ y = 0) : J.val (a + b + c + d) = .num (x + y) := by
  have h1 : J.val (a + b + c) = .num x := by rw [add_zero_val hc, add_zero_val hb, ha]
  rcases h with rfl | rfl
  · rw [zero_add_val h1, hd, zero_add]
  · rw [add_zero_val hd, h1, add_zero]

/-- A point that is seen to the side has a position. -/
theorem seen (B : IeeeBits J) {p : Iso D} (h : SameIso J p pose) : fpoint (ftransform p ⟨0, 0, 0, 1⟩) ≠ none := by
  obtain ⟨⟨a1, a2, a3, a4, a5, a6, a7, a8, a9⟩, ht1, ht2, ht3⟩ := h
  have z : ∀ {a : D} {x : ℝ}, J.val a = .num x → J.val (a * 0) = .num 0 := fun h => mul_zero_val ⟨_, h⟩ J.zero
  have hw : J.val ((0 : D) * 0 + 0 * 0 + 0 * 0 + 1 * 1) = .num 1 := by
    rw [sum4 (z J.zero) (z J.zero) (z J.zero) one_mul_one (.inl rfl), zero_add]
  have t1 : J.val (p.t.x * 1) = .num 1 := (same_mul (ht1.trans rfl) rfl).trans one_mul_one
  have t0 : ∀ {a : D}, J.val a = J.val (0 : D) → J.val (a * 1) = .num 0 := fun h =>
    zero_mul_val ⟨1, J.one⟩ (h.trans J.zero)
  have hx : J.val (p.rot.m11 * 0 + p.rot.m12 * 0 + p.rot.m13 * 0 + p.t.x * 1) = .num 1 := by
    rw [sum4 (z (a1.trans J.one)) (z (a2.trans J.zero)) (z (a3.trans J.zero)) t1 (.inl rfl), zero_add]
  have hy : J.val (p.rot.m21 * 0 + p.rot.m22 * 0 + p.rot.m23 * 0 + p.t.y * 1) = .num 0 := by
    rw [sum4 (z (a4.trans J.zero)) (z (a5.trans J.one)) (z (a6.trans J.zero)) (t0 ht2) (.inl rfl), zero_add]
  have hz : J.val (p.rot.m31 * 0 + p.rot.m32 * 0 + p.rot.m33 * 0 + p.t.z * 1) = .num 0 := by
    rw [sum4 (z (a7.trans J.zero)) (z (a8.trans J.zero)) (z (a9.trans J.one)) (t0 ht3) (.inl rfl), zero_add]
  unfold ftransform
  simp only
  generalize (0 : D) * 0 + 0 * 0 + 0 * 0 + 1 * 1 = w at hw
  generalize p.rot.m11 * 0 + p.rot.m12 * 0 + p.rot.m13 * 0 + p.t.x * 1 = x at hx
  generalize p.rot.m21 * 0 + p.rot.m22 * 0 + p.rot.m23 * 0 + p.t.y * 1 = y at hy
  generalize p.rot.m31 * 0 + p.rot.m32 * 0 + p.rot.m33 * 0 + p.t.z * 1 = v at hz
  have hs : ¬isSignNegative w = true := by
    rw [B.sign_num w 1 hw one_ne_zero]; norm_num
  unfold fhomogeneous
  simp only [if_neg hs]
  have hn : J.val (fnorm ⟨x, y, v⟩) = .num 1 := norm_one (.inl hx) hy hz
  unfold fpoint
  rw [if_neg]
  · simp
  · simp only [FloatOps.eq, Bool.and_eq_true, J.le, not_and]
    intro h
    rw [J.div _ _ 1 1 hw hn one_ne_zero, div_one, J.rnd_val 1 1 J.one, J.zero] at h
    exact absurd (show (1 : ℝ) ≤ 0 from h) (by norm_num)

omit [FloatBits D] in
theorem side : J.val (fnorm (pose : Iso D).t * 1) = .num 1 :=
  (same_mul ((norm_one (.inl J.one) J.zero J.zero).trans J.one.symm) rfl).trans one_mul_one

example (n : Nat) : SameIso ExFloat.ieee (fsingleViewL1 1 pose 1 1 n [(nothing, ⟨0, 0, 0, 1⟩)]) pose :=
  C108_all_nan_single_l1 (pose := pose) (eps := 1) (x := 1) (e := 1) ExFloat.bits ExFloat.zero_over_zero 1 pose_finite side (by norm_num) (by norm_num)
    ExFloat.ieee.one (by norm_num) (by norm_num) ⟨1, ExFloat.ieee.one⟩ n (by
      intro m hm
      rw [List.mem_singleton.1 hm]
      exact nothing_nan ExFloat.zero_over_zero) (fun p hs => ⟨(nothing, ⟨0, 0, 0, 1⟩), List.mem_singleton.2 rfl, seen ExFloat.bits hs⟩)

/-- A point at infinity has none. -/
theorem unseen {p : Iso D} (h : SameIso J p pose) : fpoint (ftransform p ⟨1, 0, 0, 0⟩) = none := by
  obtain ⟨⟨a1, a2, a3, a4, a5, a6, a7, a8, a9⟩, ht1, ht2, ht3⟩ := h
  have z : ∀ {a : D} {x : ℝ}, J.val a = .num x → J.val (a * 0) = .num 0 := fun h => mul_zero_val ⟨_, h⟩ J.zero
  have o : ∀ {a : D}, J.val a = J.val (0 : D) → J.val (a * 1) = .num 0 := fun h => zero_mul_val ⟨1, J.one⟩ (h.trans J.zero)
  have hw : J.val ((0 : D) * 1 + 0 * 0 + 0 * 0 + 1 * 0) = .num 0 := by
    rw [sum4 (o rfl) (z J.zero) (z J.zero) (z J.one) (.inl rfl), zero_add]
  have t1 : J.val (p.rot.m11 * 1) = .num 1 := (same_mul (a1.trans rfl) rfl).trans one_mul_one
  have hx : J.val (p.rot.m11 * 1 + p.rot.m12 * 0 + p.rot.m13 * 0 + p.t.x * 0) = .num 1 := by
    rw [sum4 t1 (z (a2.trans J.zero)) (z (a3.trans J.zero)) (z (ht1.trans J.one)) (.inr rfl), add_zero]
  have hy : J.val (p.rot.m21 * 1 + p.rot.m22 * 0 + p.rot.m23 * 0 + p.t.y * 0) = .num 0 := by
    rw [sum4 (o a4) (z (a5.trans J.one)) (z (a6.trans J.zero)) (z (ht2.trans J.zero)) (.inl rfl), zero_add]
  have hz : J.val (p.rot.m31 * 1 + p.rot.m32 * 0 + p.rot.m33 * 0 + p.t.z * 0) = .num 0 := by
    rw [sum4 (o a7) (z (a8.trans J.zero)) (z (a9.trans J.one)) (z (ht3.trans J.zero)) (.inl rfl), zero_add]
  unfold ftransform
  simp only
  generalize (0 : D) * 1 + 0 * 0 + 0 * 0 + 1 * 0 = w at hw
  generalize p.rot.m11 * 1 + p.rot.m12 * 0 + p.rot.m13 * 0 + p.t.x * 0 = x at hx
  generalize p.rot.m21 * 1 + p.rot.m22 * 0 + p.rot.m23 * 0 + p.t.y * 0 = y at hy
  generalize p.rot.m31 * 1 + p.rot.m32 * 0 + p.rot.m33 * 0 + p.t.z * 0 = v at hz
  have n0 : ∀ {a : D}, J.val a = .num 0 → J.val (-a) = .num 0 := by
    intro a h
    rw [J.neg, h]
    show Flt.num (-0) = _
    rw [neg_zero]
  have key : ∀ {a n : D}, J.val a = .num 0 → J.val n = .num 1 → FloatOps.eq (a / n) 0 = true := by
    intro a n ha hn
    simp only [FloatOps.eq, Bool.and_eq_true, J.le]
    rw [J.div _ _ 0 1 ha hn one_ne_zero, zero_div, rnd_zero, J.zero]
    exact ⟨le_refl (0 : ℝ), le_refl (0 : ℝ)⟩
  unfold fhomogeneous fpoint
  simp only
  by_cases hs : isSignNegative w = true
  · simp only [if_pos hs]
    rw [if_pos (key (n0 hw) (norm_one (.inr (by rw [J.neg, hx]; rfl)) (n0 hy) (n0 hz)))]
  · simp only [if_neg hs]
    rw [if_pos (key hw (norm_one (.inl hx) hy hz))]

example (n : Nat) (b : V3 ExFloat.F32) :
    BadIso ExFloat.ieee (fsingleViewL1 1 pose 1 1 (n + 1) [(b, ⟨1, 0, 0, 0⟩)]) ∧
      SameIso ExFloat.ieee (fsingleViewL2 1 pose 1 (n + 1) [(b, ⟨1, 0, 0, 0⟩)]) pose :=
  C108_points_at_infinity 1 1 ⟨1, ExFloat.ieee.one⟩ pose_finite n (by simp) (fun p hs m hm => by
    rw [List.mem_singleton.1 hm]; exact unseen hs)

/-- A pose with NaN in it. -/
example (n : Nat) (ms : List (V3 ExFloat.F32 × V4 ExFloat.F32)) :
    BadIso ExFloat.ieee (fsingleViewL2 1 ⟨fone, nothing⟩ 1 n ms) :=
  (C108_bad_pose_single (.inr (nothing_nan ExFloat.zero_over_zero).bad) 1 1 1 n ms).2

end ExOptimize

end Verif.Geo.Rounded
