import Verif.Props.SfmFilter
import Verif.Props.PoseGraphExample
import Mathlib.Data.List.Permutation

/-!
# C87: a reconstruction meeting the hypotheses

The three cameras of `ExGraph` at 0, 1 and 2 on a line. Landmark 0 is seen by all of them; the first and the third see the
point 1, 0, 3/4 exactly, the second looks the other way. The limits are the default settings.
-/

namespace Verif.Sfm.ExFilter

open Verif.Geo Verif.Sfm.ExGraph

noncomputable section

/-- The point 1, 0, 3/4. -/
def point : V4 ℝ := ⟨4 / 5, 0, 3 / 5, 4 / 5⟩

def W : World Nat where
  bearing f n := some (if n = 0 then if f = 0 then ⟨4 / 5, 0, 3 / 5⟩ else if f = 1 then ⟨-1, 0, 0⟩ else ⟨-4 / 5, 0, 3 / 5⟩
    else ⟨0, 0, 1⟩)
  colour _ _ := some 0
  triangulate _ := some point
  minObservations := 3
  minCosine := 1 / 1000

def lim : Limits := ⟨1 / 10, 1 / 100000⟩

def settings : Settings := ⟨3, 3, 1, 0, 0, 1, 1⟩

theorem complete (R : Recon (Iso ℝ)) : BearingsComplete W R := fun _ _ _ _ _ => ⟨_, rfl⟩

theorem units : UnitBearings W := by
  intro f n b h
  simp only [W, Option.some.injEq] at h
  subst h
  split
  · split
    · norm_num [V3.normSq]
    · split <;> norm_num [V3.normSq]
  · norm_num [V3.normSq]

theorem landmark : R5.landmarks.get 0 = some ⟨[(0, 0), (1, 0), (2, 0)]⟩ := rfl

theorem seen (o : Nat × Nat) {pose : Iso ℝ} {b : V3 ℝ}
    (h : ∃ V, R5.views.get o.1 = some V ∧ V.pose = pose ∧ W.bearing V.frame o.2 = some b) :
    poseBearing W R5 o = some (pose, b) := by
  obtain ⟨V, h1, h2, h3⟩ := h
  unfold poseBearing
  rw [h1]
  simp only [Option.bind_eq_bind, Option.bind_some, h3, h2]
  rfl

theorem seen0 : poseBearing W R5 (0, 0) = some (Iso.one, ⟨4 / 5, 0, 3 / 5⟩) := seen _ ⟨_, rfl, rfl, rfl⟩
theorem seen1 : poseBearing W R5 (1, 0) = some (turned 1, ⟨-1, 0, 0⟩) := seen _ ⟨_, rfl, rfl, rfl⟩
theorem seen2 : poseBearing W R5 (2, 0) = some (shifted 2, ⟨-4 / 5, 0, 3 / 5⟩) := seen _ ⟨_, rfl, rfl, rfl⟩

theorem pbs : SeenAs W R5 [(0, 0), (1, 0), (2, 0)]
    [(Iso.one, ⟨4 / 5, 0, 3 / 5⟩), (turned 1, ⟨-1, 0, 0⟩), (shifted 2, ⟨-4 / 5, 0, 3 / 5⟩)] := by
  rw [seenAs_iff]
  simp only [List.mapM_cons, List.mapM_nil, seen0, seen1, seen2]
  rfl

theorem single {R : Recon (Iso ℝ)} {o : Nat × Nat} {pb : Iso ℝ × V3 ℝ} (h : poseBearing W R o = some pb) :
    SeenAs W R [o] [pb] := by
  rw [seenAs_iff]
  simp only [List.mapM_cons, List.mapM_nil, h]
  rfl

theorem transform_eq {pose : Iso ℝ} {p q : V4 ℝ} {n : ℝ} (hn : 0 < n) (h : pose.homMul p = V4.smul n q)
    (hq : q.xyz.normSq = 1) (hw : 0 ≤ q.w) : transform pose p = some q := by
  unfold transform
  rw [h, fromHomogeneous_smul _ hn]
  unfold fromHomogeneous
  have e : q.xyz.norm = 1 := by unfold V3.norm; rw [hq, Real.sqrt_one]
  simp only [if_neg (not_lt.2 hw), e]
  rw [if_neg one_ne_zero]
  congr 1
  ext <;> simp only [lin] <;> norm_num

theorem exact0 : transform Iso.one point = some ⟨4 / 5, 0, 3 / 5, 4 / 5⟩ :=
  transform_eq one_pos (by unfold point; ext <;> simp only [lin] <;> norm_num) (by simp only [lin]; norm_num) (by norm_num)
theorem exact1 : transform (turned 1) point = some ⟨1, 0, 0, 4 / 3⟩ :=
  transform_eq (n := 3 / 5) (by norm_num) (by unfold point turned; ext <;> simp only [lin] <;> norm_num)
    (by simp only [lin]; norm_num) (by norm_num)
theorem exact2 : transform (shifted 2) point = some ⟨-4 / 5, 0, 3 / 5, 4 / 5⟩ :=
  transform_eq one_pos (by unfold point shifted; ext <;> simp only [lin] <;> norm_num) (by simp only [lin]; norm_num)
    (by norm_num)

theorem fits0 : Fits W lim R5 [(0, 0), (1, 0), (2, 0)] (0, 0) := by
  refine Or.inr (Or.inr ⟨by decide, _, point, _, pbs, rfl, single seen0, ?_⟩)
  rintro ⟨q, h1, h2⟩
  rw [exact0] at h1
  cases h1
  revert h2
  simp only [bearing, lim, lin]
  norm_num

theorem fits2 : Fits W lim R5 [(0, 0), (1, 0), (2, 0)] (2, 0) := by
  refine Or.inr (Or.inr ⟨by decide, _, point, _, pbs, rfl, single seen2, ?_⟩)
  rintro ⟨q, h1, h2⟩
  rw [exact2] at h1
  cases h1
  revert h2
  simp only [bearing, lim, lin]
  norm_num

theorem fits1 : ¬ Fits W lim R5 [(0, 0), (1, 0), (2, 0)] (1, 0) := by
  rintro (h | ⟨a, b, h, _⟩ | ⟨_, r, p, pb, h1, h2, h3, h4⟩)
  · simp at h
  · exact absurd (List.Forall₂.length_eq h) (by simp)
  · cases h2
    rw [seenAs_iff] at h3
    have h5 := (seenAs_iff ..).1 (single seen1)
    rw [h5] at h3
    cases h3
    apply h4
    refine ⟨_, exact1, ?_⟩
    simp only [bearing, lim, lin]
    norm_num

theorem apart : ¬ Meet lim (Iso.one, ⟨4 / 5, 0, 3 / 5⟩) (shifted 2, ⟨-4 / 5, 0, 3 / 5⟩) := by
  unfold Meet
  rw [(C53_loss_one _ _ _).1]
  · norm_num [lim]
  · simp only [shifted, lin]; norm_num

/-- **C87** What is left may again be filtered: the first filter removes one observation of three, and the two others
both see the point exactly. The second filter separates them, because their bearings are more than a right angle
apart. -/
theorem C87_second_pass (ω : Oracle (Iso ℝ)) : ∃ (d d' d'' : Data (Iso ℝ)) (R R' R'' : Recon (Iso ℝ)) (L' L'' : Landmark),
    Reachable d ∧ d.recons.get 0 = some R ∧
    d.filterObservations (geoOracle W lim ω) settings 0 = some (d', true) ∧ d'.recons.get 0 = some R' ∧
    d'.filterObservations (geoOracle W lim ω) settings 0 = some (d'', true) ∧ d''.recons.get 0 = some R'' ∧
    R'.landmarks.get 0 = some L' ∧ (∀ o, o ∈ L'.entries ↔ o = (0, 0) ∨ o = (2, 0)) ∧
    (∀ o ∈ L'.entries, ∃ pb q, SeenAs W R' [o] [pb] ∧ transform pb.1 point = some q ∧ bearing q = pb.2) ∧
    R''.landmarks.get 0 = some L'' ∧ L''.entries.length = 1 := by
  have hcos : 0 ≤ W.minCosine := by norm_num [W]
  have hzero : ∀ R : Recon (Iso ℝ), AtLeastRobust W R settings.minRobust := fun R =>
    ⟨[], List.nodup_nil, Nat.le_refl 0, by simp⟩
  obtain ⟨d', b, R', h1, h2, h3, h4, _⟩ :=
    C87_filter_observations reach5 get5 (complete R5) units rigid5 hcos lim ω settings
  have hb := h3.2 (hzero R')
  subst hb
  have hR' := (h4 rfl).1
  have reach' : Reachable d' := .step reach5 (op := .filterObservations (geoOracle W lim ω) settings 0) ⟨R5, get5⟩ (by
    show (d5.filterObservations (geoOracle W lim ω) settings 0).map Prod.fst = some d'
    rw [h1]; rfl)
  obtain ⟨L', k1, k2, _, _⟩ := h2.kept 0 _ landmark
  have k2 := k2 ⟨(0, 0), by simp, fits0⟩
  have k3 : ∀ o, o ∈ L'.entries ↔ o = (0, 0) ∨ o = (2, 0) := by
    intro o
    rw [k2 o]
    simp only [List.mem_cons, List.not_mem_nil, or_false]
    constructor
    · rintro ⟨rfl | rfl | rfl, h⟩
      · exact Or.inl rfl
      · exact absurd h fits1
      · exact Or.inr rfl
    · rintro (rfl | rfl)
      · exact ⟨Or.inl rfl, fits0⟩
      · exact ⟨Or.inr (Or.inr rfl), fits2⟩
  have hrig : RigidPoses R' := by
    intro v V' hV'
    have hv := h2.views v
    rw [hV'] at hv
    cases hV : R5.views.get v with
    | none => rw [hV] at hv; simp at hv
    | some V =>
      rw [hV] at hv
      simp only [Option.map_some, Option.some.injEq, Prod.mk.injEq] at hv
      rw [hv.2.1]
      exact rigid5 v V hV
  have pbEq : ∀ o, poseBearing W R' o = poseBearing W R5 o := by
    intro o
    have hv := h2.views o.1
    unfold poseBearing
    cases h1 : R5.views.get o.1 with
    | none =>
      cases h2 : R'.views.get o.1 with
      | none => rfl
      | some V' => rw [h1, h2] at hv; simp at hv
    | some V =>
      cases h2 : R'.views.get o.1 with
      | none => rw [h1, h2] at hv; simp at hv
      | some V' =>
        rw [h1, h2] at hv
        simp only [Option.map_some, Option.some.injEq, Prod.mk.injEq] at hv
        simp only [Option.bind_eq_bind, Option.bind_some, hv.1, hv.2.1]
  obtain ⟨d'', b, R'', g1, g2, g3, g4, _⟩ :=
    C87_filter_observations reach' hR' (complete R') units hrig hcos lim ω settings
  have hb := g3.2 (hzero R'')
  subst hb
  obtain ⟨L'', j1, _, j3, _⟩ := g2.kept 0 L' k1
  have hperm : L'.entries.Perm [(0, 0), (2, 0)] := by
    rw [List.perm_ext_iff_of_nodup (Recon.nodup_entries (((reachable_consistent reach').recons 0 R' hR').obsWF 0 L' k1))
      (by decide)]
    intro o
    rw [k3 o]
    simp
  obtain ⟨o, _, ho⟩ := j3 (by
    rintro ⟨o, _, h | ⟨a, b, h, hm⟩ | ⟨h, _⟩⟩
    · rw [hperm.length_eq] at h; simp at h
    · rw [seenAs_iff] at h
      have e2 : [(0, 0), (2, 0)].mapM (poseBearing W R') =
          some [(Iso.one, ⟨4 / 5, 0, 3 / 5⟩), (shifted 2, ⟨-4 / 5, 0, 3 / 5⟩)] := by
        simp only [List.mapM_cons, List.mapM_nil, pbEq, seen0, seen2]
        rfl
      rcases mapM_perm (f := poseBearing W R') hperm with ⟨h5, _⟩ | ⟨r, r', h5, h6, h7⟩
      · rw [h] at h5; cases h5
      · rw [h] at h5; cases h5
        rw [e2] at h6; cases h6
        have hs := C87_two_views_symmetric (a := (Iso.one, (⟨4 / 5, 0, 3 / 5⟩ : V3 ℝ)))
          (b := (shifted 2, ⟨-4 / 5, 0, 3 / 5⟩)) Iso.Rigid.one (shifted_rigid 2) lim
        rcases List.perm_pair.1 h7 with h8 | h8
        · cases h8; exact apart hm
        · cases h8; exact apart (hs.2 hm)
    · rw [hperm.length_eq] at h; simp at h)
  refine ⟨d5, d', d'', R5, R', R'', L', L'', reach5, get5, h1, hR', g1, (g4 rfl).1, k1, k3, ?_, j1, by rw [ho]; rfl⟩
  intro o ho
  rcases (k3 o).1 ho with rfl | rfl
  · exact ⟨_, _, single ((pbEq _).trans seen0), exact0, rfl⟩
  · exact ⟨_, _, single ((pbEq _).trans seen2), exact2, rfl⟩

end

end Verif.Sfm.ExFilter
