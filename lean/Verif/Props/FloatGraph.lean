import Verif.Model.FloatGraph
import Verif.Props.FloatResidual
import Verif.Props.SfmGraphNext
import Verif.Lemmas.FloatArith

/-!
# Graph optimisation, normalisation and relative scales with floating point numbers (C110)

A logarithm with NaN counts as zero, and yet nothing that is not finite gets into the pose of a view that is kept: such a
view is removed, and with it all views that share a constraint with it.
-/

namespace Verif.Geo.Rounded

open Verif.Akaze
open Verif.Bicubic (Flt)
open Verif.Akaze.FloatOps (lit lt le abs sqrt)
open Verif.Akaze.FloatBits (isFinite isNan isSignNegative)
open P3P

variable {D : Type} [FloatOps D] {J : Ieee D}

theorem bad_mul_left {A B : M3 D} (h : BadM J A) : BadM J (fmul A B) := by
  rcases h with h | h | h
  · exact .inl (.inl (not_dot (.inl h)))
  · exact .inr (.inl (.inl (not_dot (.inl h))))
  · exact .inr (.inr (.inl (not_dot (.inl h))))

theorem bad_isoMul_left {a p : Iso D} (h : BadIso J a) : BadIso J (fisoMul a p) := by
  rcases h with h | h
  · exact .inl (bad_mul_left h)
  · exact .inr (bad_add (.inl h))

theorem bad_finv {p : Iso D} (h : BadIso J p) : BadIso J (finv p) := .inr (bad_inv h)

/-- The six numbers of a constraint: the translation is not finite if one of the poses is not. -/
theorem bad_delta {e o p : Iso D} (h : BadIso J e ∨ BadIso J o ∨ BadIso J p) :
    BadV J (fisoMul (fisoMul e o) (finv p)).t := by
  have left : BadIso J (fisoMul e o) → BadV J (fisoMul (fisoMul e o) (finv p)).t := by
    rintro (h | h)
    · exact bad_add (.inr (bad_mulVec h))
    · exact bad_add (.inl h)
  rcases h with h | h | h
  · exact left (bad_isoMul_left h)
  · exact left (bad_isoMul h)
  · exact bad_add (.inr (worst_mulVec (bad_inv h)).bad)

theorem bad_sum {gs : List (FTangent D)} (h : ∃ g ∈ gs, BadV J g.translation) : BadV J (fsum gs).translation := by
  have key : ∀ (gs : List (FTangent D)) (z : FTangent D), (BadV J z.translation ∨ ∃ g ∈ gs, BadV J g.translation) →
      BadV J (gs.foldl FTangent.add z).translation := by
    intro gs
    induction gs with
    | nil =>
      rintro z (h | ⟨g, hg, -⟩)
      · exact h
      · cases hg
    | cons g gs ih =>
      rintro z (h | ⟨g', hg, hb⟩)
      · exact ih _ (.inl (bad_add (.inl h)))
      · rcases List.mem_cons.1 hg with rfl | hg
        · exact ih _ (.inl (bad_add (.inr hb)))
        · exact ih _ (.inr ⟨g', hg, hb⟩)
  exact key gs _ (.inr h)

theorem bad_smul {s : D} {a : V3 D} (h : BadV J a) : BadV J (fsmul s a) :=
  h.imp (fun h => not_mul (.inr h)) (Or.imp (fun h => not_mul (.inr h)) (fun h => not_mul (.inr h)))

variable [FloatBits D]

theorem bad_allFinite (B : IeeeBits J) {g : FTangent D} (h : BadV J g.translation) : g.allFinite = false := by
  rw [← Bool.not_eq_true]
  unfold FTangent.allFinite
  simp only [Bool.and_eq_true, B.isFinite]
  rintro ⟨⟨⟨⟨⟨⟨x, hx⟩, y, hy⟩, z, hz⟩, -⟩, -⟩, -⟩
  rcases h with h | h | h
  · exact h x hx
  · exact h y hy
  · exact h z hz

/-- **C110.** If the pose of the view, a constraint, or the pose of another view of a constraint has a number that is NaN or
infinite, the view gets no new pose, whatever the logarithm, the exponential and the rate. -/
theorem C110_no_pose (B : IeeeBits J) (log : M3 D → V3 D) (exp : V3 D → M3 D) (scale : D) {pose : Iso D}
    {es : List (Iso D × Iso D)} (h : ∃ e ∈ es, BadIso J e.1 ∨ BadIso J e.2 ∨ BadIso J pose) :
    fmovedPose log exp scale pose es = none := by
  unfold fmovedPose
  simp only
  rw [bad_allFinite B]
  · simp
  · obtain ⟨e, he, hb⟩ := h
    exact bad_smul (bad_sum ⟨_, List.mem_map.2 ⟨e, he, rfl⟩, bad_delta hb⟩)

/-- **C110.** A view gets a new pose only if all six numbers of its step are finite. -/
theorem C110_finite_step (B : IeeeBits J) {log : M3 D → V3 D} {exp : V3 D → M3 D} {scale : D} {pose p : Iso D}
    {es : List (Iso D × Iso D)} (h : fmovedPose log exp scale pose es = some p) :
    ∃ v w : V3 D, ¬ BadV J v ∧ ¬ BadV J w ∧ p = fisoMul ⟨exp w, v⟩ pose := by
  unfold fmovedPose at h
  simp only at h
  split at h
  · rename_i hf
    unfold FTangent.allFinite at hf
    simp only [Bool.and_eq_true, B.isFinite] at hf
    obtain ⟨⟨⟨⟨⟨⟨a, ha⟩, b, hb⟩, c, hc⟩, d, hd⟩, e, he⟩, f, hf⟩ := hf
    refine ⟨_, _, ?_, ?_, (Option.some.inj h).symm⟩
    · rintro (h | h | h)
      · exact h a ha
      · exact h b hb
      · exact h c hc
    · rintro (h | h | h)
      · exact h d hd
      · exact h e he
      · exact h f hf
  · cases h

/-- The new pose was computed from finite numbers only. -/
theorem fconstrain_finite (B : IeeeBits J) {log : M3 D → V3 D} {exp : V3 D → M3 D} {scale : D} {R : Sfm.Recon (Iso D)}
    {v : Nat} {es : List (Nat × Iso D)} {p : Iso D} (h : fconstrain log exp scale R v es = some p) :
    ∀ e ∈ es, ¬ BadIso J e.2 ∧ (∀ O, R.views.get e.1 = some O → ¬ BadIso J O.pose) ∧
      ∀ V, R.views.get v = some V → ¬ BadIso J V.pose := by
  unfold fconstrain at h
  simp only [Option.bind_eq_bind, Option.bind_eq_some_iff] at h
  obtain ⟨V, hV, others, ho, hp⟩ := h
  have hf := Geo.mapM_forall₂ ho
  intro e he
  obtain ⟨i, hi, rfl⟩ := List.mem_iff_getElem.1 he
  have hi' : i < others.length := hf.length_eq ▸ hi
  have hg := (List.forall₂_iff_get.1 hf).2 i hi hi'
  simp only [List.get_eq_getElem, Option.map_eq_some_iff] at hg
  obtain ⟨O, hO, hOe⟩ := hg
  have hm : (es[i].2, O.pose) ∈ others := hOe ▸ List.getElem_mem hi'
  have key : ∀ q : Prop, (q → BadIso J es[i].2 ∨ BadIso J O.pose ∨ BadIso J V.pose) → ¬ q := by
    intro q hq hq'
    have := C110_no_pose B log exp scale (pose := V.pose) (es := others) ⟨_, hm, hq hq'⟩
    rw [this] at hp
    cases hp
  refine ⟨key _ .inl, ?_, ?_⟩
  · intro O' hO'
    rw [hO] at hO'
    cases hO'
    exact key _ (fun h => .inr (.inl h))
  · intro V' hV'
    rw [hV] at hV'
    cases hV'
    exact key _ (fun h => .inr (.inr h))

open Sfm in
/-- A view with a new pose: all its edges are between live views, and finite. -/
theorem constrainView_finite (B : IeeeBits J) {log : M3 D → V3 D} {exp : V3 D → M3 D} {scale : D} {ω : Oracle (Iso D)}
    (hω : ω.constrain = fconstrain log exp scale) {R : Recon (Iso D)} {edges : List (Nat × Nat × Iso D)} {v : Nat}
    {p : Iso D} (h : R.constrainView ω edges v = some (some p)) :
    ∀ b q, (v, b, q) ∈ edges → ¬ BadIso J q ∧ (∀ O, R.views.get b = some O → ¬ BadIso J O.pose) ∧
      ∀ V, R.views.get v = some V → ¬ BadIso J V.pose := by
  unfold Recon.constrainView at h
  simp only at h
  split at h
  · cases h
  · split at h
    · rw [hω] at h
      intro b q hb
      refine fconstrain_finite B (Option.some.inj h) (b, q) ?_
      exact List.mem_map.2 ⟨(v, b, q), List.mem_filter.2 ⟨hb, by simp⟩, rfl⟩
    · cases h

open Sfm in
/-- The poses of a constraint and of its three views are finite numbers. -/
def ConstraintFinite (J : Ieee D) (R : Recon (Iso D)) (c : Constraint (Iso D)) : Prop :=
  ¬ BadIso J c.first ∧ ¬ BadIso J c.second ∧
    ∀ v, c.mentions v = true → ∀ V, R.views.get v = some V → ¬ BadIso J V.pose

open Sfm in
/-- A view with a new pose: all its constraints are finite. -/
theorem kept_finite (B : IeeeBits J) {log : M3 D → V3 D} {exp : V3 D → M3 D} {scale : D} {ω : Oracle (Iso D)}
    (hω : ω.constrain = fconstrain log exp scale) {R : Recon (Iso D)} {v : Nat} {p : Iso D}
    (h : R.constrainView ω R.flattenConstraints v = some (some p)) :
    ∀ e ∈ R.constraints.map.entries, e.2.mentions v = true → ConstraintFinite J R e.2 := by
  have hf := constrainView_finite B hω h
  intro e he hv
  have hin : ∀ x ∈ Recon.edgeConstraints e.2, x ∈ R.flattenConstraints := by
    intro x hx
    exact List.mem_flatMap.2 ⟨e.2, List.mem_map.2 ⟨e, he, rfl⟩, hx⟩
  have inv : ∀ {p : Iso D}, ¬ BadIso J p⁻¹ → ¬ BadIso J p := fun h h' => h (bad_finv h')
  have mul1 : ∀ {p q : Iso D}, ¬ BadIso J (p * q) → ¬ BadIso J p := fun h h' => h (bad_isoMul_left h')
  have mul2 : ∀ {p q : Iso D}, ¬ BadIso J (p * q) → ¬ BadIso J q := fun h h' => h (bad_isoMul h')
  have views : (∀ V, R.views.get e.2.v0 = some V → ¬ BadIso J V.pose) → (∀ V, R.views.get e.2.v1 = some V → ¬ BadIso J V.pose) →
      (∀ V, R.views.get e.2.v2 = some V → ¬ BadIso J V.pose) →
      ∀ v, e.2.mentions v = true → ∀ V, R.views.get v = some V → ¬ BadIso J V.pose := by
    intro h0 h1 h2 w hw
    simp only [Constraint.mentions, Bool.or_eq_true, beq_iff_eq] at hw
    rcases hw with (rfl | rfl) | rfl
    · exact h0
    · exact h1
    · exact h2
  simp only [Constraint.mentions, Bool.or_eq_true, beq_iff_eq] at hv
  rcases hv with (rfl | rfl) | rfl
  · have a := hf _ _ (hin (e.2.v0, e.2.v2, e.2.second⁻¹) (by simp [Recon.edgeConstraints]))
    have b := hf _ _ (hin (e.2.v0, e.2.v1, e.2.first⁻¹) (by simp [Recon.edgeConstraints]))
    exact ⟨inv b.1, inv a.1, views a.2.2 b.2.1 a.2.1⟩
  · have a := hf _ _ (hin (e.2.v1, e.2.v0, e.2.first) (by simp [Recon.edgeConstraints]))
    have b := hf _ _ (hin (e.2.v1, e.2.v2, (e.2.second * e.2.first⁻¹)⁻¹) (by simp [Recon.edgeConstraints]))
    exact ⟨a.1, mul1 (inv b.1), views a.2.1 a.2.2 b.2.1⟩
  · have a := hf _ _ (hin (e.2.v2, e.2.v1, e.2.second * e.2.first⁻¹) (by simp [Recon.edgeConstraints]))
    have b := hf _ _ (hin (e.2.v2, e.2.v0, e.2.second) (by simp [Recon.edgeConstraints]))
    exact ⟨inv (mul2 a.1), b.1, views b.2.1 a.2.1 a.2.2⟩

open Sfm Sfm.Data in
/-- **C110.** After a round of graph optimisation that keeps the reconstruction, every remaining view was there before, and
the poses of its constraints and of all views it shares a constraint with were finite: a view with NaN or an infinite number is
removed in the same round, and so is every view constrained against it. -/
theorem C110_round (B : IeeeBits J) {log : M3 D → V3 D} {exp : V3 D → M3 D} {scale : D} {ω : Nat → Oracle (Iso D)}
    (hω : ∀ n, (ω n).constrain = fconstrain log exp scale) {d : Data (Iso D)} (hd : d.Consistent) {r : Nat}
    {R : Recon (Iso D)} (hR : d.recons.get r = some R) {d' : Data (Iso D)}
    (h : d.applyLoop ω r R.flattenConstraints 1 = some (d', true)) :
    ∃ R', d'.recons.get r = some R' ∧ ∀ w W', R'.views.get w = some W' →
      (∃ W, R.views.get w = some W ∧ W'.frame = W.frame ∧ W'.landmarks = W.landmarks ∧ ¬ BadIso J W.pose) ∧
      (∃ e ∈ R.constraints.map.entries, e.2.mentions w = true) ∧
      ∀ e ∈ R.constraints.map.entries, e.2.mentions w = true → ConstraintFinite J R e.2 := by
  unfold Data.applyLoop at h
  simp only [hR] at h
  cases hc : R.constrainViews (ω 0) R.flattenConstraints R.views.keys with
  | none => simp [hc] at h
  | some ur =>
    obtain ⟨us, rs⟩ := ur
    obtain ⟨hnd, hus, hrs⟩ := constrainLists_ok (ω 0) (hd.recons r R hR) hc
    simp only [hc] at h
    by_cases h3 : 3 ≤ us.length
    · rw [if_pos h3] at h
      obtain ⟨d1, R1, hrun1, hd1, hR1, hn1, hk1, hq1, _, _, hv1, _⟩ := applyBundleAdjust_ok hd hR hnd hus hrs
      simp only [hrun1, Data.applyLoop, Option.some.injEq, Prod.mk.injEq, and_true] at h
      subst h
      refine ⟨R1, hR1, fun w W' hW' => ?_⟩
      rw [hv1] at hW'
      split at hW'
      · cases hW'
      next hw =>
        cases hW : R.views.get w with
        | none => rw [hW] at hW'; cases hW'
        | some W =>
          rw [hW] at hW'
          cases hW'
          obtain ⟨-, -, hall, -, -⟩ := constrainViews_ok (ω 0) _ hc
          have hmem : w ∈ us.map Prod.fst := by
            rcases hall w ((SlotMap.mem_keys_iff _ _).2 ⟨W, hW⟩) with h | h
            · exact h
            · exact absurd h hw
          obtain ⟨u, hu, rfl⟩ := List.mem_map.1 hmem
          have hn := constrainViews_updates (ω 0) _ hc u hu
          have hk := kept_finite B (hω 0) hn
          have hex : ∃ e ∈ R.constraints.map.entries, e.2.mentions u.1 = true := by
            unfold Recon.constrainView at hn
            simp only at hn
            split at hn
            · cases hn
            next hne =>
              rw [List.isEmpty_iff] at hne
              obtain ⟨x, hx⟩ := List.exists_mem_of_ne_nil _ hne
              obtain ⟨y, hy, -⟩ := List.mem_map.1 hx
              obtain ⟨hy, hy'⟩ := List.mem_filter.1 hy
              obtain ⟨c, hc, hcy⟩ := List.mem_flatMap.1 hy
              obtain ⟨e, he, rfl⟩ := List.mem_map.1 hc
              refine ⟨e, he, ?_⟩
              rw [← beq_iff_eq.1 hy']
              simp only [Recon.edgeConstraints, List.mem_cons, List.not_mem_nil, or_false] at hcy
              simp only [Constraint.mentions, Bool.or_eq_true, beq_iff_eq]
              rcases hcy with rfl | rfl | rfl | rfl | rfl | rfl <;> simp
          refine ⟨⟨W, rfl, rfl, rfl, ?_⟩, hex, hk⟩
          obtain ⟨e, he, hm⟩ := hex
          exact (hk e he hm).2.2 _ hm W hW
    · rw [if_neg h3] at h
      cases hrm : d.removeReconstruction r with
      | none => simp [hrm] at h
      | some d1 => simp [hrm] at h

/-! ### Normalisation -/

/-- `is_normal`: finite and neither zero nor subnormal. -/
def NormalTest (J : Ieee D) (normal : D → Bool) : Prop := ∀ a, normal a = true → ∃ x, J.val a = .num x ∧ x ≠ 0

omit [FloatBits D] in
theorem mean_not {empty : D} (he : J.NotNumber empty ∨ J.val empty = .num 0) {l : List D} (h : l = [] ∨ ∃ x ∈ l, J.NotNumber x)
    {normal : D → Bool} (hn : NormalTest J normal) : normal (fmean empty l) = false := by
  have key : ∀ (l : List D) (n : Nat) (avg : D), (J.NotNumber avg ∨ ∃ x ∈ l, J.NotNumber x) → J.NotNumber (fmeanLoop n avg l) := by
    intro l
    induction l with
    | nil =>
      rintro n avg (h | ⟨x, hx, -⟩)
      · exact h
      · cases hx
    | cons x l ih =>
      rintro n avg (h | ⟨y, hy, h⟩)
      · exact ih _ _ (.inl (not_add (.inl h)))
      · rcases List.mem_cons.1 hy with rfl | hy
        · exact ih _ _ (.inl (not_add (.inr (not_div_pos (not_sub (.inl h)) (count_pos (Nat.succ_pos n))))))
        · exact ih _ _ (.inr ⟨y, hy, h⟩)
  rw [← Bool.not_eq_true]
  intro hm
  obtain ⟨x, hx, hx0⟩ := hn _ hm
  unfold fmean at hx
  rcases h with rfl | h
  · simp only [List.isEmpty_nil, if_true] at hx
    rcases he with he | he
    · exact he x hx
    · rw [he] at hx; exact hx0 (by simpa using hx.symm)
  · rw [if_neg] at hx
    · exact key l 0 0 (.inr h) x hx
    · rw [List.isEmpty_iff]
      obtain ⟨y, hy, -⟩ := h
      exact List.ne_nil_of_mem hy

/-- A moved point that is not finite, for the pose or for itself, is skipped as a point at infinity or has NaN as distance. -/
theorem distance_bad {pose : Iso D} {w : V4 D} (h : BadIso J pose ∨ Bad4 J w) :
    (fpoint (ftransform pose w)).map fnorm = none ∨ ∃ x, (fpoint (ftransform pose w)).map fnorm = some x ∧ J.val x = .nan := by
  have hn := transform_nan (J := J) h
  unfold fpoint
  split
  · exact .inl rfl
  · refine .inr ⟨_, rfl, ?_⟩
    have h2 : NanV J (funscale (fbearing (ftransform pose w)) (ftransform pose w).w) := nan_unscale' (.inl hn)
    exact J.sqrt_nan _ (nan_fdot (.inl h2))

/-- One of the coordinates is NaN. -/
def Nan4 (J : Ieee D) (p : V4 D) : Prop := J.val p.x = .nan ∨ J.val p.y = .nan ∨ J.val p.z = .nan ∨ J.val p.w = .nan

/-- A point with NaN is not skipped. -/
theorem distance_of_nan (pose : Iso D) {w : V4 D} (h : Nan4 J w) :
    ∃ x, (fpoint (ftransform pose w)).map fnorm = some x ∧ J.val x = .nan := by
  have hb : Bad4 J w := h.imp not_of_nan (Or.imp not_of_nan (Or.imp not_of_nan not_of_nan))
  rcases distance_bad (pose := pose) (.inr hb) with hd | hd
  · exfalso
    have hx : ∀ {a b c d : D}, J.val (a * w.x + b * w.y + c * w.z + d * w.w) = .nan := by
      intro a b c d
      rcases h with h | h | h | h
      · exact nan_add (.inl (nan_add (.inl (nan_add (.inl (nan_mul (.inr h)))))))
      · exact nan_add (.inl (nan_add (.inl (nan_add (.inr (nan_mul (.inr h)))))))
      · exact nan_add (.inl (nan_add (.inr (nan_mul (.inr h)))))
      · exact nan_add (.inr (nan_mul (.inr h)))
    have hw : J.val (ftransform pose w).w = .nan := by
      unfold ftransform fhomogeneous
      refine nan_div (.inl ?_)
      split
      · exact nan_neg hx
      · exact hx
    unfold fpoint at hd
    rw [if_neg] at hd
    · cases hd
    · unfold FloatOps.eq
      rw [nan_le (.inl hw)]
      simp
  · exact hd

/-- **C110.** If the pose of the first view has a number that is NaN or infinite, or one of the points has NaN in it,
normalisation returns the reconstruction as it was: it never moves all poses by such a pose or scales them by NaN, infinity
or zero. -/
theorem C110_normalize {normal : D → Bool} (hn : NormalTest J normal) {empty : D}
    (he : J.NotNumber empty ∨ J.val empty = .num 0) {points : Sfm.Recon (Iso D) → Sfm.View (Iso D) → Option (List (V4 D))}
    {R : Sfm.Recon (Iso D)} {first : Nat} {V : Sfm.View (Iso D)} (hV : R.views.get first = some V) {ps : List (V4 D)}
    (hp : points R V = some ps) (h : BadIso J V.pose ∨ ∃ w ∈ ps, Nan4 J w) :
    fnormalizeRecon normal empty points R first = some R := by
  unfold fnormalizeRecon
  simp only [hV, hp, Option.bind_eq_bind, Option.bind_some]
  rw [mean_not he _ hn]
  · simp
  · rcases h with h | ⟨w, hw, h⟩
    · rcases hl : fdistances V.pose ps with _ | ⟨x, l⟩
      · exact .inl rfl
      · right
        have hx : x ∈ fdistances V.pose ps := by rw [hl]; simp
        obtain ⟨w, hw, hd⟩ := List.mem_filterMap.1 hx
        refine ⟨x, by simp, ?_⟩
        rcases distance_bad (J := J) (pose := V.pose) (w := w) (.inl h) with h' | ⟨y, h', hy⟩
        · rw [h'] at hd; cases hd
        · rw [h'] at hd; cases hd; exact not_of_nan hy
    · right
      obtain ⟨x, hd, hx⟩ := distance_of_nan V.pose h
      exact ⟨x, List.mem_filterMap.2 ⟨w, hw, hd⟩, not_of_nan hx⟩

/-- **C110.** A point with an infinite coordinate does not change the scale: either nothing is done, or the distances are
those of the finite points. -/
theorem C110_normalize_finite (B : IeeeBits J) {normal : D → Bool} (hn : NormalTest J normal) {empty : D}
    (he : J.NotNumber empty ∨ J.val empty = .num 0) (points : Sfm.Recon (Iso D) → Sfm.View (Iso D) → Option (List (V4 D)))
    (R : Sfm.Recon (Iso D)) (first : Nat) :
    fnormalizeRecon normal empty points R first = none ∨ fnormalizeRecon normal empty points R first = some R ∨
      fnormalizeRecon normal empty points R first =
        fnormalizeRecon normal empty (fun R V => (points R V).map fun ps => ps.filter allFinite) R first := by
  unfold fnormalizeRecon
  cases hV : R.views.get first with
  | none => exact .inl rfl
  | some V =>
    cases hp : points R V with
    | none => left; simp [hp]
    | some ps =>
      right
      simp only [hp, Option.bind_eq_bind, Option.bind_some, Option.map_some]
      by_cases hm : normal (fmean empty (fdistances V.pose ps)) = true
      · right
        have hd : fdistances V.pose (ps.filter allFinite) = fdistances V.pose ps := by
          unfold fdistances
          rw [List.filterMap_filter]
          refine List.filterMap_congr fun w hw => ?_
          by_cases hf : allFinite w = true
          · simp [hf]
          · have hb : Bad4 J w := by
              by_contra hb
              simp only [Bad4, Ieee.NotNumber, not_or, not_forall, not_not] at hb
              exact hf ((allFinite_iff B).2 hb)
            rcases distance_bad (J := J) (pose := V.pose) (w := w) (.inr hb) with h' | ⟨y, h', hy⟩
            · simp [hf, h']
            · exfalso
              have hmem : y ∈ fdistances V.pose ps := List.mem_filterMap.2 ⟨w, hw, h'⟩
              rw [mean_not he (.inr ⟨y, hmem, not_of_nan hy⟩) hn] at hm
              cases hm
        rw [hd]
      · left
        rw [if_neg hm]

/-! ### Relative scales -/

omit [FloatBits D] in
/-- **C110.** A relative scale that is accepted is a positive finite number. -/
theorem C110_scale {normal : D → Bool} (hn : NormalTest J normal) (hz : ZeroOverZero J)
    (hi : ∀ (a b : D) (s : Bool), J.val a = .inf s → J.val b = .num 0 → J.NotNumber (a / b)) {fp sp : V4 D} {ratio : D}
    (h : frelativeScale normal fp sp = some ratio) : ∃ x, J.val ratio = .num x ∧ 0 < x := by
  unfold frelativeScale at h
  simp only [Option.bind_eq_bind, Option.bind_eq_some_iff] at h
  obtain ⟨f, -, s, -, h⟩ := h
  split at h
  next hm =>
    cases h
    obtain ⟨x, hx, hx0⟩ := hn _ hm
    refine ⟨x, hx, lt_of_le_of_ne ?_ (Ne.symm hx0)⟩
    have nan : ∀ {a b : D}, (J.val a = .nan ∨ J.val b = .nan) → J.val (a / b) ≠ .num x := by
      intro a b h; rw [nan_div h]; simp
    have hf := normSq_val (J := J) f
    have hs := normSq_val (J := J) s
    rcases hf with hf | hf
    · exact absurd hx (nan (.inl hf))
    rcases hs with hs | hs
    · exact absurd hx (nan (.inr hs))
    rcases ef : J.val (fnormSq f) with _ | u | a <;> rw [ef] at hf
    · exact absurd hx (nan (.inl ef))
    · rcases es : J.val (fnormSq s) with _ | v | b <;> rw [es] at hs
      · exact absurd hx (nan (.inr es))
      · exact absurd hx (by rw [J.inf_div_inf _ _ _ _ ef es]; simp)
      · have hb : 0 ≤ b := hs
        rcases hb.eq_or_lt with rfl | hb
        · exact absurd hx (hi _ _ _ ef es x)
        · exact absurd hx (by rw [J.inf_div _ _ _ _ ef es hb]; simp)
    · have ha : 0 ≤ a := hf
      rcases es : J.val (fnormSq s) with _ | v | b <;> rw [es] at hs
      · exact absurd hx (nan (.inr es))
      · rw [J.div_inf _ _ _ _ ef es] at hx
        exact absurd (by simpa using hx.symm) hx0
      · have hb : 0 ≤ b := hs
        rcases hb.eq_or_lt with rfl | hb
        · by_cases ha0 : a = 0
          · rw [hz _ _ (ha0 ▸ ef) es] at hx; cases hx
          · obtain ⟨t, ht⟩ := J.div_zero _ _ _ ef es ha0
            rw [ht] at hx; cases hx
        · have hm := J.rnd_mono 0 (a / b) (by positivity)
          rw [← J.div _ _ _ _ ef es hb.ne', hx, rnd_zero] at hm
          exact hm
  · cases h

omit [FloatBits D] in
/-- **C110.** So is the scale that is applied to the second pose: the root of the middle one of the accepted ratios. -/
theorem C110_median {normal : D → Bool} (hn : NormalTest J normal) (hz : ZeroOverZero J)
    (hi : ∀ (a b : D) (s : Bool), J.val a = .inf s → J.val b = .num 0 → J.NotNumber (a / b))
    {sort : List D → List D} (hs : ∀ l, ∀ x ∈ sort l, x ∈ l) (matches' : List (V4 D × V4 D)) {scale : D}
    (h : fmedianScale sort (matches'.filterMap fun m => frelativeScale normal m.1 m.2) = some scale) :
    ∃ x, J.val scale = .num x ∧ 0 < x := by
  unfold fmedianScale Sfm.median at h
  obtain ⟨ratio, hr, rfl⟩ := Option.map_eq_some_iff.1 h
  obtain ⟨m, -, hm⟩ := List.mem_filterMap.1 (hs _ _ (List.mem_of_getElem? hr))
  obtain ⟨x, hx, hx0⟩ := C110_scale hn hz hi hm
  rw [J.sqrt_num _ _ hx, if_neg (not_lt.2 hx0.le)]
  have h1 : min 1 x ≤ √x := by
    rcases le_total 1 x with h1 | h1
    · rw [min_eq_left h1]; exact Real.one_le_sqrt.2 h1
    · rw [min_eq_right h1]; exact Real.le_sqrt_of_sq_le (by nlinarith)
  have h2 : √x ≤ max 1 x := by
    rcases le_total 1 x with h1 | h1
    · rw [max_eq_right h1, Real.sqrt_le_left hx0.le]; nlinarith
    · rw [max_eq_left h1]; exact Real.sqrt_le_one.2 h1
  have e1 : J.Exact (min 1 x) := by
    rcases le_total 1 x with h1 | h1
    · rw [min_eq_left h1]; exact exact_one
    · rw [min_eq_right h1]; exact exact_val hx
  have e2 : J.Exact (max 1 x) := by
    rcases le_total 1 x with h1 | h1
    · rw [max_eq_right h1]; exact exact_val hx
    · rw [max_eq_left h1]; exact exact_one
  obtain ⟨y, hy, h3, -⟩ := rnd_between e1 e2 h1 h2
  exact ⟨y, hy, lt_of_lt_of_le (lt_min one_pos hx0) h3⟩

end Verif.Geo.Rounded
