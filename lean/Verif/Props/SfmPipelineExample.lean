import Verif.Props.SfmPipelineFound
import Verif.Props.SfmStartGeoExample
import Verif.Props.SfmPoseExample
import Verif.Props.SfmExactExample

/-!
# C93: a history meeting the hypotheses

The scene of C92: a feed and three frames are added; the call that adds the third starts a reconstruction.
-/

namespace Verif.Sfm.ExStart

open Verif.Geo

noncomputable section

theorem sound : SoundTriangulator world.triangulate := by
  intro l x p hr hl ha hp
  have hx : ∀ {l' : List (Iso ℝ × V3 ℝ)} {y : V3 ℝ}, ExactlySeen l' y → (∀ o ∈ l', o ∈ l) → x = y := by
    intro l' y hy hsub
    obtain ⟨o, ho, o', ho', hn⟩ := hy.across
    have hray : ∀ o ∈ l, ∃ d, x = o.1.inv.t.add (V3.smul d (o.1.inv.rot.mulVec o.2)) := by
      intro o ho
      obtain ⟨_, d, _, hd⟩ := hl o ho
      refine ⟨d, ?_⟩
      have e : o.1.inv.point (o.1.point x) = x := by
        rw [← Iso.point_mul, Iso.Rigid.inv_mul (hr o ho)]
        lin3
      rw [hd] at e
      rw [← e]
      lin3
    obtain ⟨a, h1⟩ := hray o (hsub o ho)
    obtain ⟨b, h2⟩ := hray o' (hsub o' ho')
    obtain ⟨a', h3⟩ := on_ray hy ho
    obtain ⟨b', h4⟩ := on_ray hy ho'
    exact lines_meet hn h1 h2 h3 h4
  simp only [world, triangulate] at hp
  split at hp
  · rename_i h
    rw [hx h.choose_spec (fun _ h => h)]
    exact hp
  · split at hp
    · rename_i h
      rw [hx h.choose_spec (fun _ h => List.mem_of_mem_take h)]
      exact hp
    · cases hp

theorem pictured : scene.Pictured world :=
  ⟨seen, fun _ _ => ⟨_, rfl⟩, fun _ _ h => parallax h, sound, le_refl (0 : ℝ)⟩

/-- Nothing is placed here: the search finds no landmark. -/
def placing : TopOracle (Iso ℝ) where
  ro _ := ExPose.order
  knn _ _ _ _ := []
  order := byObservations
  judge := geoJudge world ⟨1, 1⟩ ⟨1, 1, 1, 1, 1⟩ (fun _ => none)
  record := threeOracle world ⟨1, 1, 1, 1⟩ id ExExact.exactOracle
  merge _ := ExExact.exactOracle
  tr _ _ p := p
  opt _ _ := ExExact.exactOracle
  filt _ := ExExact.exactOracle

/-- A search that finds two features of every frame, and no motion. -/
def dull : StartOracle (Iso ℝ) ℝ := { oracle 2 with knn := fun _ _ _ => [(0, 0), (1, 0)], consensus := fun _ _ _ => none }

open Classical in
def adding (p : TopOracle (Iso ℝ)) : FrameOracle (Iso ℝ) ℝ where
  similar d f := if f = 2 then [1, 0].filter (fun g => (d.frames.get g).isSome) else []
  sort l := l
  first _ := p
  start d := startGeo world geo (if (oracle 2).Searches d then oracle 2 else dull)
  idp := Iso.one
  second _ := p

def topSettings : TopSettings where
  ops := ⟨1, 1, 1, 1, 1, 1, 1⟩
  start := settings
  tracking := ⟨10, 0, 0⟩
  betterBy := 24
  initialFeatures := 8
  minRegister := 4

theorem exactPlacing (s : TopSettings) : ExactPlacing scene world s placing where
  ro _ := ExPose.orderFair
  range _ _ _ _ _ _ e he := by cases he
  right R frame views f ls l _ h hl := by
    exfalso
    have hno : ∀ l x, ¬ R.BestAt views (placing.knn R frame f) l x := by
      rintro l x ⟨⟨v, i, _, h, _⟩, _⟩
      cases h
    rcases h with ⟨_, _, _, h, _⟩ | ⟨_, _, _, _, _, _, h, _⟩ <;> exact hno _ _ h
  order := rfl
  judge := by
    refine ⟨_, _, _, ⟨⟨?_, ?_⟩, ?_, ?_⟩, rfl⟩ <;> (intro ws pose is h; cases h)
  record := ⟨fun _ => .refl _, fun _ => .refl _⟩
  three := ⟨_, _, fun _ => .refl _, rfl⟩
  opt := ⟨_, fun _ _ => rfl⟩

theorem exactFrame (s : TopSettings) : ExactFrame scene world s (adding placing) where
  similarOnce d f := by
    simp only [adding]
    split
    · exact List.Nodup.filter _ (by decide)
    · exact List.nodup_nil
  similarLive d f g h := by
    simp only [adding] at h
    split at h
    · exact Option.isSome_iff_exists.mp (List.mem_filter.mp h).2
    · cases h
  sort l := .refl _
  first _ := exactPlacing s
  second _ := exactPlacing s
  start d := by
    refine ⟨_, _, rfl, ?_⟩
    split
    · rename_i h
      exact ⟨fair 2, h, trueConsensus two_pos⟩
    · refine ⟨⟨(fair 2).shuffleTwo, (fair 2).shuffleTri, (fair 2).sort, (fair 2).sorted, fun _ _ _ _ _ h => by cases h⟩, ?_,
        fun _ _ _ _ _ h => by cases h⟩
      intro a b A B i _ _ _ hB _
      refine ⟨Nat.le_refl 2, ?_⟩
      intro e he
      simp [dull] at he
      rcases he with rfl | rfl
      · exact Nat.lt_of_lt_of_le (by decide) hB
      · exact hB
  idp := rfl

/-- A call that adds a frame and does nothing else. -/
theorem quiet (p : TopOracle (Iso ℝ)) {d d' : Data (Iso ℝ)} (h : d.addFrame 0 32 = some d') (hn : d.frames.next ≠ 2)
    (hc : findCandidates d' topSettings.tracking d.frames.next [] = some (FMap.empty, []))
    {F : Frame} (hF : d'.frames.get d.frames.next = some F) (hv : F.view = none) :
    addFrameTop (adding p) topSettings d 0 32 = some (d', d.frames.next) := by
  have e1 : (adding p).similar d' d.frames.next = [] := if_neg hn
  have e2 : initReconstruction ((adding p).start d') settings d' d.frames.next [] = some none := by
    unfold initReconstruction
    simp only [hF, twoViews]
    rfl
  have e3 : tryInit ((adding p).start d') settings (adding p).idp d' d.frames.next [] = some (d', none) := by
    unfold tryInit
    simp only [e2]
  have e4 : tryLocalize (adding p) topSettings d' d.frames.next FMap.empty [] = some d' := by
    have : localizeLoop (adding p).first topSettings d.frames.next ((adding p).sort FMap.empty.entries) d' = some d' := rfl
    unfold tryLocalize
    simp only [this, localizeStart, hF, hv, show topSettings.start = settings from rfl, e3, Option.map_some, localizeRest]
  unfold addFrameTop
  simp only [h, e1, hc, e4]

theorem unviewed {n : Nat} {feed : Nat} {d : Data (Iso ℝ)} {d1 : Data (Iso ℝ)} (h : d.addFrame feed n = some d1)
    (hno : ∀ g G, d1.frames.get g = some G → G.view = none) : FoundInOne (adding placing) topSettings d feed n := by
  intro d1' h1 g h' G H r r' v v' _ hG _ _ hv _
  rw [h] at h1
  cases h1
  rw [hno g G hG] at hv
  cases hv

theorem noView2 {g : Nat} {G : Frame} (h : d2.frames.get g = some G) : G.view = none := by
  match g with
  | 0 => cases h; rfl
  | n + 1 => cases h

theorem noView3 {g : Nat} {G : Frame} (h : d3.frames.get g = some G) : G.view = none := by
  match g with
  | 0 => cases h; rfl
  | 1 => cases h; rfl
  | n + 2 => cases h

theorem noView4 {g : Nat} {G : Frame} (h : d4.frames.get g = some G) : G.view = none := by
  match g with
  | 0 => cases h; rfl
  | 1 => cases h; rfl
  | 2 => cases h; rfl
  | n + 3 => cases h

theorem history3 : ExactHistory scene world topSettings d3 := by
  have h1 : ExactHistory scene world topSettings d1 := .call (c := .addFeed) .new trivial rfl
  have h2 : ExactHistory scene world topSettings d2 := by
    have a : d1.addFrame 0 32 = some d2 := rfl
    refine .call (c := .addFrame (adding placing) 0 32) h1 ⟨exactFrame _, ⟨_, rfl⟩, unviewed a (fun _ _ => noView2)⟩ ?_
    simp only [Call.run]
    rw [quiet placing a (by decide) rfl rfl rfl]
    rfl
  have a : d2.addFrame 0 32 = some d3 := rfl
  refine .call (c := .addFrame (adding placing) 0 32) h2 ⟨exactFrame _, ⟨_, rfl⟩, unviewed a (fun _ _ => noView3)⟩ ?_
  simp only [Call.run]
  rw [quiet placing a (by decide) rfl rfl rfl]
  rfl

/-- The call that adds the third frame starts a reconstruction. -/
theorem run3 (p : TopOracle (Iso ℝ)) : ∃ d' r R, addFrameTop (adding p) topSettings d3 0 32 = some (d', 2) ∧
    d'.recons.get r = some R ∧ ∃ V, R.views.get 2 = some V ∧ V.frame = 0 := by
  have a : d3.addFrame 0 32 = some d4 := rfl
  have hn : d3.frames.next = 2 := rfl
  have e1 : (adding p).similar d4 2 = [1, 0] := rfl
  have e2 : findCandidates d4 topSettings.tracking 2 [1, 0] = some (FMap.empty, [1, 0]) := rfl
  have e3 : (adding p).start d4 = startGeo world geo (oracle 2) := by
    simp only [adding]
    rw [if_pos (searches 2)]
  have hfree : ∀ x ∈ [1, 0], d4.IsFree x := by
    intro x hx
    exact ⟨_, live (by simp at hx; omega), rfl⟩
  obtain ⟨st, hst, _⟩ := found
  obtain ⟨d', x, h, hc, _, h2⟩ := C81_try_init (startGeo_fair (W := world) (geo := geo) (fair 2)) (s := settings)
    (by decide) (reachable_consistent (honestly_reachable honest)) (searches 2) (center := 2) ⟨_, live (by decide), rfl⟩
    hfree (by decide) (by decide) Iso.one
  cases x with
  | none =>
    exfalso
    unfold tryInit at h
    rw [hst] at h
    simp only at h
    split at h <;> cases h
  | some r =>
    obtain ⟨st', _, _, _, _, hsub, _, _, _, hst'⟩ := h2 r rfl
    obtain ⟨R, hR, ⟨V0, hV0, f0, _⟩, ⟨V1, hV1, f1, _⟩, ⟨V2, hV2, f2, _⟩, _⟩ := hst'.recon
    obtain ⟨s1, s2⟩ : st'.first = 1 ∧ st'.second = 0 := by
      have := hsub.eq_of_length rfl
      simpa using this
    rw [s1] at f1
    rw [s2] at f2
    obtain ⟨F0, g0, w0, _⟩ := hc.viewFrame r R 0 V0 hR hV0
    obtain ⟨F1, g1, w1, _⟩ := hc.viewFrame r R 1 V1 hR hV1
    obtain ⟨F2, g2, w2, _⟩ := hc.viewFrame r R 2 V2 hR hV2
    rw [f0] at g0
    rw [f1] at g1
    rw [f2] at g2
    have e4 : tryLocalize (adding p) topSettings d4 2 FMap.empty [1, 0] = some d' := by
      have l1 : localizeLoop (adding p).first topSettings 2 ((adding p).sort FMap.empty.entries) d4 = some d4 := rfl
      have l2 : (adding p).idp = Iso.one := rfl
      unfold tryLocalize
      simp only [l1, localizeStart, live (by decide : 2 < 3), show topSettings.start = settings from rfl, e3, l2, h,
        Option.map_some, localizeRest, g0, w0, foundLoop, g1, w1, g2, w2, Option.isSome_some, if_true]
    have hrun : addFrameTop (adding p) topSettings d3 0 32 = some (d', 2) := by
      unfold addFrameTop
      simp only [a, hn, e1, e2, e4]
    exact ⟨d', r, R, hrun, hR, V2, hV2, f2⟩

/-- C93: the hypotheses of `C93_true_partial` hold for a history in which a reconstruction is started. -/
theorem history : ∃ d r R, ExactHistory scene world topSettings d ∧ d.recons.get r = some R ∧
    (∃ V, R.views.get 2 = some V ∧ V.frame = 0) ∧ R.TrueTo scene := by
  obtain ⟨d', r, R, hrun, hR, V2, hV2, f2⟩ := run3 placing
  have a : d3.addFrame 0 32 = some d4 := rfl
  have hist : ExactHistory scene world topSettings d' := by
    refine .call (c := .addFrame (adding placing) 0 32) history3
      ⟨exactFrame _, ⟨_, rfl⟩, unviewed a (fun _ _ => noView4)⟩ ?_
    simp only [Call.run]
    rw [hrun]
    rfl
  exact ⟨d', r, R, hist, hR, ⟨V2, hV2, f2⟩, (C93_true_partial pictured (by decide) hist).2 r R hR⟩

end

end Verif.Sfm.ExStart
