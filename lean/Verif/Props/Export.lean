import Verif.Spec.Export
import Verif.Props.NormalizeExample

/-!
# Exported meshes (C19)
-/

namespace Verif.Sfm

open Verif.Geo

variable {C : Type}

theorem addCamera_eq (color : C) (faces : Bool) (m : Mesh C) (cam : ExportCamera) (i : Nat)
    (hm : m.vertices.length = 5 * i) : addCamera color faces m cam =
      ⟨m.vertices ++ pyramid color cam, m.faces ++ if faces then (sides i).map (List.map asI32) else []⟩ := by
  cases faces <;> simp [addCamera, Mesh.addVertex, Mesh.addTriangle, pyramid, sides, hm]

theorem addCameras_eq (color : C) (faces : Bool) : ∀ (cams : List ExportCamera) (m : Mesh C) (i : Nat),
    m.vertices.length = 5 * i → cams.foldl (addCamera color faces) m =
      ⟨m.vertices ++ cams.flatMap (pyramid color),
        m.faces ++ if faces then ((List.range cams.length).flatMap (fun j => sides (i + j))).map (List.map asI32) else []⟩ := by
  intro cams
  induction cams with
  | nil => intro m i _; simp
  | cons c cs ih =>
    intro m i hm
    rw [List.foldl_cons, addCamera_eq color faces m c i hm, ih _ (i + 1) (by simp [hm, pyramid]; omega)]
    have e : ∀ j, i + 1 + j = i + (j + 1) := by intro j; omega
    cases faces <;> simp [List.range_succ_eq_map, List.flatMap_map, e]

theorem addPoints_eq : ∀ (ps : List (V3 ℝ × C)) (m : Mesh C),
    ps.foldl (fun m p => (m.addVertex p.1 p.2).1) m = ⟨m.vertices ++ ps, m.faces⟩ := by
  intro ps
  induction ps with
  | nil => intro m; simp
  | cons p ps ih => intro m; rw [List.foldl_cons, ih]; simp [Mesh.addVertex]

theorem pyramids_length (color : C) (cams : List ExportCamera) : (cams.flatMap (pyramid color)).length = 5 * cams.length := by
  induction cams with
  | nil => rfl
  | cons c cs ih => simp only [List.flatMap_cons, List.length_append, ih, pyramid, List.length_cons, List.length_nil]; omega

theorem pyramids_get (color : C) : ∀ (cams : List ExportCamera) (i k : Nat) (rest : List (V3 ℝ × C)), k < 5 →
    i < cams.length → (cams.flatMap (pyramid color) ++ rest)[5 * i + k]? = (cams[i]?).bind (fun c => (pyramid color c)[k]?) := by
  intro cams
  induction cams with
  | nil => intro i k rest _ h; simp at h
  | cons c cs ih =>
    intro i k rest hk hi
    have hl : (pyramid color c).length = 5 := rfl
    rw [List.flatMap_cons, List.append_assoc]
    rcases i with _ | i
    · rw [List.getElem?_append_left (by omega)]
      simp
    · rw [List.getElem?_append_right (by omega), hl, show 5 * (i + 1) + k - 5 = 5 * i + k by omega,
        ih i k rest hk (by simpa using hi)]
      simp

theorem exportMesh_eq (color : C) (points : List (V3 ℝ × C)) (cams : List ExportCamera) (faces : Bool) :
    exportMesh color points cams faces = ⟨cams.flatMap (pyramid color) ++ points,
      if faces then ((List.range cams.length).flatMap sides).map (List.map asI32) else []⟩ := by
  unfold exportMesh
  rw [addCameras_eq color faces cams ⟨[], []⟩ 0 rfl, addPoints_eq]
  simp

/-- **C19** There are five vertices for each camera, in the order of the cameras and in the colour of cameras, and one for
each point after them, in the order of the points. -/
theorem C19_vertices (color : C) (points : List (V3 ℝ × C)) (cams : List ExportCamera) (faces : Bool) :
    (exportMesh color points cams faces).vertices.length = 5 * cams.length + points.length ∧
      (∀ i cam, cams[i]? = some cam → ∀ k, k < 5 →
        (exportMesh color points cams faces).vertices[5 * i + k]? = (pyramid color cam)[k]?) ∧
      ∀ j : Nat, (exportMesh color points cams faces).vertices[5 * cams.length + j]? = points[j]? := by
  rw [exportMesh_eq]
  refine ⟨by simp only [List.length_append, pyramids_length], ?_, ?_⟩
  · intro i cam hc k hk
    have hi : i < cams.length := (List.getElem?_eq_some_iff.1 hc).1
    simp only [pyramids_get color cams i k points hk hi, hc, Option.bind_some]
  · intro j
    simp only
    rw [List.getElem?_append_right (by rw [pyramids_length]; omega), pyramids_length]
    congr 1; omega

theorem asI32_of_lt {n : Nat} (h : n < 2 ^ 31) : asI32 n = n := by
  unfold asI32
  rw [BitVec.toInt_ofNat']
  rw [Int.bmod_def]
  have : (n : ℤ) % ((2 ^ 32 : Nat) : ℤ) = n := Int.emod_eq_of_lt (by omega) (by norm_num; omega)
  rw [this, if_pos (by norm_num; omega)]

theorem sides_lt {i n : Nat} (hi : i < n) {s : List Nat} (hs : s ∈ sides i) {a : Nat} (ha : a ∈ s) :
    5 * i ≤ a ∧ a < 5 * i + 5 ∧ a < 5 * n := by
  simp only [sides, List.mem_cons, List.not_mem_nil, or_false] at hs
  rcases hs with rfl | rfl | rfl | rfl <;> simp only [List.mem_cons, List.not_mem_nil, or_false] at ha <;>
    rcases ha with rfl | rfl | rfl <;> omega

/-- **C19** With faces there are four for each camera, the sides of its pyramid; without, none. With up to 2³¹ vertices of
cameras every index is that of a vertex, one of the five of its camera. -/
theorem C19_faces (color : C) (points : List (V3 ℝ × C)) (cams : List ExportCamera) (hn : 5 * cams.length ≤ 2 ^ 31) :
    (exportMesh color points cams false).faces = [] ∧
      (exportMesh color points cams true).faces.length = 4 * cams.length ∧
      (∀ i, i < cams.length → ∀ k, k < 4 → (exportMesh color points cams true).faces[4 * i + k]? =
        some [(5 * i : ℤ), 5 * i + 1 + ((k + 3) % 4 : Nat), 5 * i + 1 + k]) ∧
      ∀ f ∈ (exportMesh color points cams true).faces, f.Nodup ∧ ∃ i, i < cams.length ∧ ∀ a ∈ f,
        ∃ k : Nat, a = k ∧ 5 * i ≤ k ∧ k < 5 * i + 5 ∧ k < (exportMesh color points cams true).vertices.length := by
  have hlen : ∀ n, ((List.range n).flatMap sides).length = 4 * n := by
    intro n
    induction n with
    | zero => rfl
    | succ n ih => rw [List.range_succ, List.flatMap_append, List.length_append, ih]; simp [sides]; omega
  have hget : ∀ n i k, i < n → k < 4 → ((List.range n).flatMap sides)[4 * i + k]? = (sides i)[k]? := by
    intro n
    induction n with
    | zero => intro i k hi; omega
    | succ n ih =>
      intro i k hi hk
      rw [List.range_succ, List.flatMap_append]
      by_cases h : i < n
      · rw [List.getElem?_append_left (by rw [hlen]; omega), ih i k h hk]
      · have : i = n := by omega
        subst this
        rw [List.getElem?_append_right (by rw [hlen]; omega), hlen]
        simp
  refine ⟨by rw [exportMesh_eq]; rfl, by rw [exportMesh_eq]; simp only [if_true, List.length_map, hlen], ?_, ?_⟩
  · intro i hi k hk
    rw [exportMesh_eq]
    simp only [if_true, List.getElem?_map, hget _ i k hi hk]
    have : k = 0 ∨ k = 1 ∨ k = 2 ∨ k = 3 := by omega
    rcases this with rfl | rfl | rfl | rfl <;> simp only [sides, List.getElem?_cons_zero, List.getElem?_cons_succ,
      Option.map_some, List.map_cons, List.map_nil] <;>
      rw [asI32_of_lt (by omega), asI32_of_lt (by omega), asI32_of_lt (by omega)] <;>
      simp only [Option.some.injEq, List.cons.injEq, and_true] <;> omega
  · intro f hf
    rw [(C19_vertices color points cams true).1]
    rw [exportMesh_eq] at hf
    simp only [if_true, List.mem_map, List.mem_flatMap, List.mem_range] at hf
    obtain ⟨s, ⟨i, hi, hs⟩, rfl⟩ := hf
    have hsm : s.map asI32 = s.map (fun n : Nat => (n : ℤ)) :=
      List.map_congr_left (fun a ha => asI32_of_lt (by have := sides_lt hi hs ha; omega))
    rw [hsm]
    refine ⟨List.Nodup.map Nat.cast_injective ?_, i, hi, ?_⟩
    · simp only [sides, List.mem_cons, List.not_mem_nil, or_false] at hs
      rcases hs with rfl | rfl | rfl | rfl <;> simp
    · intro a ha
      obtain ⟨k, hk, rfl⟩ := List.mem_map.1 ha
      have := sides_lt hi hs hk
      exact ⟨k, rfl, this.1, this.2.1, by omega⟩

/-- With more vertices the indices of faces wrap round: some face has a negative index. -/
theorem C19_false : ∃ (points : List (V3 ℝ × Nat)) (cams : List ExportCamera),
    ∃ f ∈ (exportMesh 0 points cams true).faces, ∃ a ∈ f, a < 0 := by
  refine ⟨[], List.replicate 429496731 ⟨V3.zero, V3.zero, V3.zero, 0⟩, ?_⟩
  rw [exportMesh_eq]
  simp only [if_true, List.length_replicate]
  refine ⟨[5 * 429496730, 5 * 429496730 + 4, 5 * 429496730 + 1].map asI32, List.mem_map_of_mem ?_, asI32 (5 * 429496730),
    List.mem_map_of_mem (by simp), by simp only [asI32]; decide⟩
  exact List.mem_flatMap.2 ⟨429496730, List.mem_range.2 (by norm_num), by simp [sides]⟩

/-- **C19** The pyramid of a view is where its camera is: the centre is the point the pose sends to the origin, and the
corners are the points it sends to the plane at the focal length in front of the camera, one focal length up, down, left and
right of the axis. The focal length is a hundredth of the mean distance of the landmarks. -/
theorem C19_camera {pose : Iso ℝ} (hp : pose.Rigid) (d : ℝ) (up right : ℤ) :
    pose.point (exportCamera pose d).center = V3.zero ∧
      pose.point (corner (exportCamera pose d) up right) = ⟨right * (d / 100), -up * (d / 100), d / 100⟩ := by
  have e : ∀ x, pose.point (pose.inv.point x) = x := by
    intro x
    rw [← Iso.point_mul, hp.mul_inv]
    ext <;> simp [lin]
  have hc : corner (exportCamera pose d) up right = pose.inv.point ⟨right * (d / 100), -up * (d / 100), d / 100⟩ := by
    have hr : pose.inv.rot.IsRot := hp.inv
    have hx : (pose.inv.rot.mulVec ⟨0, 0, 1⟩).cross (pose.inv.rot.mulVec (V3.neg ⟨0, 1, 0⟩)) = pose.inv.rot.mulVec ⟨1, 0, 0⟩ := by
      rw [hr.cross_mulVec]
      congr 1
      ext <;> simp [lin]
    simp only [corner, exportCamera, hx]
    ext <;> simp only [lin] <;> ring
  refine ⟨e _, ?_⟩
  rw [hc, e]

theorem mapM_forall₂ {α β : Type _} {f : α → Option β} {Q : α → β → Prop} : ∀ {l : List α},
    (∀ a ∈ l, ∃ b, f a = some b ∧ Q a b) → ∃ r, l.mapM f = some r ∧ List.Forall₂ Q l r := by
  intro l
  induction l with
  | nil => intro _; exact ⟨[], rfl, .nil⟩
  | cons a l ih =>
    intro h
    obtain ⟨b, hb, hq⟩ := h a (by simp)
    obtain ⟨r, hr, hf⟩ := ih (fun x hx => h x (List.mem_cons_of_mem _ hx))
    exact ⟨b :: r, by simp [List.mapM_cons, hb, hr], .cons hq hf⟩

/-- **C19** Exporting a consistent reconstruction never panics, and writes a camera for each view in order and, for each
landmark in order that is robust and can be triangulated to a finite point, that point in the colour of one of its
observations. -/
theorem C19_export {W : World C} {R : Recon (Iso ℝ)} (hR : R.Consistent) (hW : FramesComplete W R) (color : C)
    (faces : Bool) : ∃ points cams, exportReconstruction W color R faces = some (exportMesh color (points.filterMap id) cams faces) ∧
      List.Forall₂ (fun (V : View (Iso ℝ)) cam => ∃ m, meanDistance W R V = some m ∧ cam = exportCamera V.pose (m.getD 0))
        (R.views.map.entries.map Prod.snd) cams ∧
      List.Forall₂ (ExportedPoint W R) R.landmarks.keys points := by
  have hp : ∀ l ∈ R.landmarks.keys, ∃ q, exportPoint W R l = some q ∧ ExportedPoint W R l q := by
    intro l hl
    obtain ⟨L, hL⟩ := (SlotMap.mem_keys_iff _ _).1 hl
    obtain ⟨x, hx⟩ := triangulateRobust_total hR hW ⟨L, hL⟩
    unfold exportPoint
    simp only [hx, Option.bind_eq_bind, Option.bind_some]
    rcases hy : x.bind toPoint with _ | y
    · exact ⟨none, rfl, x, hx, fun _ => rfl, fun z hz => by rw [hy] at hz; exact absurd hz (by simp)⟩
    · obtain ⟨v, f, hvf⟩ := hR.nonempty l L hL
      have hmem := FMap.mem_of_get hvf
      obtain ⟨o, ho⟩ : ∃ o, L.entries.head? = some o := by
        rcases h : L.entries with _ | ⟨o, os⟩
        · rw [h] at hmem; exact absurd hmem (by simp)
        · exact ⟨o, rfl⟩
      have ho' : o ∈ L.entries := List.mem_of_head? ho
      obtain ⟨V, hV, -, c, hc⟩ := observation_exists hR hW hL ho'
      refine ⟨some (y, c), ?_, x, hx, fun h => by rw [hy] at h; exact absurd h (by simp), ?_⟩
      · simp [hL, ho, hV, hc]
      · intro z hz
        rw [hy] at hz
        cases hz
        exact ⟨L, o, V, c, hL, ho', hV, hc, rfl⟩
  have hc : ∀ V ∈ R.views.map.entries.map Prod.snd, ∃ cam, exportView W R V = some cam ∧
      ∃ m, meanDistance W R V = some m ∧ cam = exportCamera V.pose (m.getD 0) := by
    intro V hV
    obtain ⟨⟨v, V'⟩, hm, rfl⟩ := List.mem_map.1 hV
    obtain ⟨m, hm⟩ := meanDistance_total hR hW (FMap.get_of_mem hR.viewsWF.1 hm)
    exact ⟨_, by unfold exportView; rw [hm]; rfl, m, hm, rfl⟩
  obtain ⟨points, h1, h2⟩ := mapM_forall₂ hp
  obtain ⟨cams, h3, h4⟩ := mapM_forall₂ hc
  exact ⟨points, cams, by unfold exportReconstruction; rw [h1]; simp only [Option.bind_eq_bind, Option.bind_some, h3]; rfl, h4, h2⟩

end Verif.Sfm

namespace Verif.Sfm.ExGeo

open Verif.Geo Verif.Sfm

theorem view_cases {v : Nat} {V : View (Iso ℝ)} (h : R.views.get v = some V) :
    (v = 0 ∧ V = ⟨0, pose0, [0]⟩) ∨ (v = 1 ∧ V = ⟨1, pose1, [0]⟩) := by
  have h := FMap.mem_of_get h
  simpa [R] using h

theorem landmark_cases {l : Nat} {L : Landmark} (h : R.landmarks.get l = some L) : l = 0 ∧ L = ⟨[(0, 0), (1, 0)]⟩ := by
  have h := FMap.mem_of_get h
  simpa [R] using h

theorem consistent : R.Consistent where
  viewsWF := ⟨by simp [R, FMap.WF, FMap.keys], by
    intro k V h
    obtain ⟨rfl, -⟩ | ⟨rfl, -⟩ := view_cases h <;> simp [R]⟩
  landmarksWF := ⟨by simp [R, FMap.WF, FMap.keys], by
    intro k L h
    obtain ⟨rfl, -⟩ := landmark_cases h; simp [R]⟩
  constraintsWF := ⟨by simp [R, FMap.WF, FMap.keys], by
    intro k c h
    have h := FMap.mem_of_get h
    simp [R] at h⟩
  obsWF := by
    intro l L h
    obtain ⟨-, rfl⟩ := landmark_cases h
    simp [FMap.WF, FMap.keys]
  nonempty := by
    intro l L h
    obtain ⟨-, rfl⟩ := landmark_cases h
    exact ⟨0, 0, rfl⟩
  agree := by
    intro v f l
    constructor
    · rintro ⟨V, hV, hf⟩
      obtain ⟨rfl, rfl⟩ | ⟨rfl, rfl⟩ := view_cases hV <;> rcases f with _ | f <;> simp at hf <;> subst hf <;>
        exact ⟨_, rfl, rfl⟩
    · rintro ⟨L, hL, hf⟩
      obtain ⟨rfl, rfl⟩ := landmark_cases hL
      have hf := FMap.mem_of_get hf
      simp at hf
      rcases hf with ⟨rfl, rfl⟩ | ⟨rfl, rfl⟩ <;> exact ⟨_, rfl, rfl⟩
  constraintsLive := by
    intro k c h
    have h := FMap.mem_of_get h
    simp [R] at h

theorem complete : FramesComplete W R := by
  intro v V f hV hf
  obtain ⟨rfl, rfl⟩ | ⟨rfl, rfl⟩ := view_cases hV <;> have : f = 0 := by simpa using hf
  all_goals subst this; simp [W]

/-- The hypotheses of `C19_export` hold; the mesh has two cameras and one point. -/
example : ∃ m, exportReconstruction W 5 R true = some m ∧ m.vertices.length = 11 ∧ m.faces.length = 8 := by
  obtain ⟨points, cams, h, h1, h2⟩ := C19_export consistent complete 5 true
  have hc : cams.length = 2 := h1.length_eq.symm
  refine ⟨_, h, ?_, ?_⟩
  · rw [(C19_vertices _ _ _ _).1, hc]
    obtain ⟨q, hq⟩ : ∃ q, points = [q] := by
      have hl : points.length = 1 := h2.length_eq.symm
      exact List.length_eq_one_iff.1 hl
    subst hq
    have h2 : ExportedPoint W R 0 q := by
      have h2 : List.Forall₂ (ExportedPoint W R) [0] [q] := h2
      simpa using h2
    obtain ⟨p, hp, -, h3⟩ := h2
    rw [tri] at hp
    obtain ⟨z, hz, hz'⟩ := pt
    rw [hz] at hp
    cases hp
    obtain ⟨_, _, _, _, -, -, -, -, rfl⟩ := h3 _ hz'
    rfl
  · rw [(C19_faces _ _ _ (by rw [hc]; norm_num)).2.1, hc]

/-- Those of `C19_camera`. -/
example : pose1.point (exportCamera pose1 4).center = V3.zero := (C19_camera (by exact M3.IsRot.one) 4 1 1).1

end Verif.Sfm.ExGeo
