import Verif.Lemmas.SfmHistory
import Verif.Props.SfmExample

/-!
# C11 and C61: moving one reconstruction into another
-/

namespace Verif.Sfm

variable {P : Type} [Mul P] [Inv P]

/-- Feature `f` of view `v` and feature `g` of view `w` belong to one landmark. -/
def Recon.SameLandmark (R : Recon P) (v f w g : Nat) : Prop :=
  ∃ l, R.Assigned v f l ∧ R.Assigned w g l

omit [Mul P] [Inv P] in
/-- The position of a view in the key list of the source. -/
private theorem key_index {R : Recon P} {v : Nat} {V : View P} (hV : R.views.get v = some V) :
    R.views.keys[R.views.keys.idxOf v]? = some v := by
  have hm : v ∈ R.views.keys := (SlotMap.mem_keys_iff _ _).mpr ⟨V, hV⟩
  rw [List.getElem?_eq_getElem (List.idxOf_lt_length_of_mem hm)]
  simp

/-- **C11** Incorporating a reconstruction, with a one-to-one map of source landmarks to live
destination landmarks, succeeds, and:
every source view gets a new key of its own; it either arrives with its frame, its transformed pose
and all its features, or no constraints could be recorded for it, and then it is gone and its frame
free again; two features of arrived views belong to one landmark exactly if they did before; mapped
landmarks arrive as the given destination landmark, other landmarks as new ones; the old views of
the destination and everything outside the two reconstructions are unchanged; the source is gone. -/
theorem C11_incorporate_reconstruction {d : Data P} (h : Reachable d) (ω : Nat → Oracle P)
    (s : Settings) (tr : P → P) {src dst : Nat} {m : FMap Nat} {S D : Recon P}
    (hv : Valid d (.incorporateReconstruction ω s tr src dst m))
    (hS : d.recons.get src = some S) (hD : d.recons.get dst = some D) :
    ∃ (d' : Data P) (D' : Recon P) (to : Nat → Nat),
      step d (.incorporateReconstruction ω s tr src dst m) = some d' ∧ Reachable d' ∧
      d'.recons.get src = none ∧ d'.recons.get dst = some D' ∧
      -- new keys, one per source view
      (∀ v, S.LiveView v → D.views.next ≤ to v) ∧
      (∀ v w, S.LiveView v → S.LiveView w → to v = to w → v = w) ∧
      -- a source view arrives, or is dropped because too few constraints were found
      (∀ v V, S.views.get v = some V →
        (∃ W, D'.views.get (to v) = some W ∧ W.frame = V.frame ∧ W.pose = tr V.pose ∧
          W.landmarks.length = V.landmarks.length) ∨
        (D'.views.get (to v) = none ∧ (∃ F, d'.frames.get V.frame = some F ∧ F.view = none) ∧
          ∃ Q : Recon P, (∀ w, w < D.views.next → Q.views.get w = D.views.get w) ∧
            (Q.views.get (to v)).map (fun W => (W.frame, W.pose, W.landmarks.length)) =
              some (V.frame, tr V.pose, V.landmarks.length) ∧
            Q.recordViewConstraints (ω (to v)) s (to v) = some (Q, false))) ∧
      -- nothing else arrives, the old views are untouched
      (∀ w, D'.LiveView w → (w < D.views.next ∨ ∃ v, S.LiveView v ∧ w = to v)) ∧
      (∀ w, w < D.views.next → D'.views.get w = D.views.get w) ∧
      -- co-observations
      (∀ v f w g, D'.LiveView (to v) → D'.LiveView (to w) → S.LiveView v → S.LiveView w →
        (D'.SameLandmark (to v) f (to w) g ↔ S.SameLandmark v f w g)) ∧
      -- mapped and unmapped landmarks
      (∀ v f l x, D'.LiveView (to v) → S.Assigned v f l → m.get l = some x →
        D'.Assigned (to v) f x) ∧
      (∀ v f l x, S.Assigned v f l → m.get l = none → D'.Assigned (to v) f x →
        ∀ w g, D.LiveView w → ¬ D.Assigned w g x) ∧
      -- the rest
      (∀ q, q ≠ dst → q ≠ src → d'.recons.get q = d.recons.get q) ∧ d'.feeds = d.feeds ∧
      (∀ f, (d'.frames.get f).map (fun F => (F.feed, F.feedFrame, F.nfeat)) =
        (d.frames.get f).map (fun F => (F.feed, F.feedFrame, F.nfeat))) := by
  have hd := reachable_consistent h
  obtain ⟨hω, hne, S', D0, hS', hD0, hinj, hlive⟩ := hv
  rw [hS] at hS'
  rw [hD] at hD0
  cases hS'
  cases hD0
  obtain ⟨d', D', m', h1, hc, h2, h3, _, h5, h6, h7, h8, h9, h10, _, h12, h13, h14⟩ :=
    Data.incorporate_spec ω hω s tr hne (hd.off (fun q => q = src))
      (Data.srcOk_of_consistent hd hS) hD ⟨hinj, hlive⟩
  have hSc := hd.recons src S hS
  have hDc := hd.recons dst D hD
  have hD'c := hc.recons dst D' h3
  have hmoved : ∀ v V W, S.views.get v = some V →
      D'.views.get (D.views.next + S.views.keys.idxOf v) = some W →
      W.frame = V.frame ∧ W.pose = tr V.pose ∧ W.landmarks.length = V.landmarks.length ∧
      ∀ (f sl : Nat), V.landmarks[f]? = some sl → ∃ dl, W.landmarks[f]? = some dl ∧
        m'.get sl = some dl := by
    intro v V W hV hW
    rcases h13 _ v V (key_index hV) hV with ⟨W', e, h⟩ | ⟨e, _⟩
    · rw [hW] at e; cases e; exact h
    · rw [hW] at e; cases e
  have hto : ∀ v f l, D'.LiveView (D.views.next + S.views.keys.idxOf v) → S.Assigned v f l →
      ∃ x, D'.Assigned (D.views.next + S.views.keys.idxOf v) f x ∧ m'.get l = some x := by
    rintro v f l ⟨W, hW⟩ ⟨V, hV, hl⟩
    obtain ⟨_, _, _, h⟩ := hmoved v V W hV hW
    obtain ⟨x, hx, hm⟩ := h f l hl
    exact ⟨x, ⟨W, hW, hx⟩, hm⟩
  have hfrom : ∀ v f x, S.LiveView v → D'.Assigned (D.views.next + S.views.keys.idxOf v) f x →
      ∃ l, S.Assigned v f l ∧ m'.get l = some x := by
    rintro v f x ⟨V, hV⟩ ⟨W, hW, hx⟩
    obtain ⟨_, _, hlen, h⟩ := hmoved v V W hV hW
    have hlt : f < V.landmarks.length := by
      rw [← hlen]
      rcases Nat.lt_or_ge f W.landmarks.length with h | h
      · exact h
      · rw [List.getElem?_eq_none h] at hx; cases hx
    obtain ⟨x', hx', hm⟩ := h f _ (List.getElem?_eq_getElem hlt)
    rw [hx] at hx'
    cases hx'
    exact ⟨_, ⟨V, hV, List.getElem?_eq_getElem hlt⟩, hm⟩
  refine ⟨d', D', fun v => D.views.next + S.views.keys.idxOf v, h1,
    .step (op := .incorporateReconstruction ω s tr src dst m) h
      ⟨hω, hne, S, D, hS, hD, hinj, hlive⟩ h1, h2, h3, ?_, ?_, ?_, ?_, h12, ?_, ?_, ?_, h5, h6, h14⟩
  · intro v _; show D.views.next ≤ D.views.next + _; omega
  · rintro v w ⟨V, hV⟩ ⟨W, hW⟩ e
    have e' : S.views.keys.idxOf v = S.views.keys.idxOf w := by
      have : D.views.next + S.views.keys.idxOf v = D.views.next + S.views.keys.idxOf w := e
      omega
    have h1 := key_index hV
    rw [e', key_index hW] at h1
    exact (Option.some.inj h1).symm
  · intro v V hV
    rcases h13 _ v V (key_index hV) hV with ⟨W, e, a, b, c, _⟩ | h
    · exact Or.inl ⟨W, e, a, b, c⟩
    · obtain ⟨a, b, Q, q1, _, ⟨W, w1, w2, w3, w4, _⟩, q3⟩ := h
      refine Or.inr ⟨a, b, Q, q3, ?_, q1⟩
      show (Q.views.get (D.views.next + _)).map _ = _
      rw [w1, ← w2, ← w3, ← w4]
      rfl
  · rintro w ⟨W, hW⟩
    by_cases hw : w < D.views.next
    · exact Or.inl hw
    · right
      have hlt := hD'c.viewsWF.fresh w W hW
      rw [h10] at hlt
      have hi : w - D.views.next < S.views.keys.length := by omega
      have hmem : S.views.keys[w - D.views.next] ∈ S.views.keys := List.getElem_mem hi
      obtain ⟨V, hV⟩ := (SlotMap.mem_keys_iff _ _).mp hmem
      refine ⟨_, ⟨V, hV⟩, ?_⟩
      show w = D.views.next + _
      have hnd : S.views.keys.Nodup := hSc.viewsWF.nodup
      rw [hnd.idxOf_getElem _ hi]
      omega
  · intro v f w g hlv hlw hv hw
    constructor
    · rintro ⟨x, h1, h2⟩
      obtain ⟨l, hl, e⟩ := hfrom v f x hv h1
      obtain ⟨l', hl', e'⟩ := hfrom w g x hw h2
      cases h7 l l' x e e'
      exact ⟨l, hl, hl'⟩
    · rintro ⟨l, h1, h2⟩
      obtain ⟨x, hx, e⟩ := hto v f l hlv h1
      obtain ⟨y, hy, e'⟩ := hto w g l hlw h2
      rw [e] at e'
      cases e'
      exact ⟨x, hx, hy⟩
  · intro v f l x hlv ha hm
    obtain ⟨y, hy, e⟩ := hto v f l hlv ha
    rw [h8 l x hm] at e
    cases e
    exact hy
  · intro v f l x ha hm hx w g hw hD2
    obtain ⟨V, hV, hl⟩ := ha
    obtain ⟨l', ha', e⟩ := hfrom v f x ⟨V, hV⟩ hx
    have : l' = l := Recon.assigned_unique ha' ⟨V, hV, hl⟩
    subst this
    rcases h9 l' x e with e' | e'
    · rw [hm] at e'; cases e'
    · obtain ⟨L, hL, _⟩ := (hDc.agree w g x).mp hD2
      have := hDc.landmarksWF.fresh x L hL
      omega

/-! ### Two reconstructions of three frames each -/

namespace Ex

/-- Settings under which every view gets its constraints. -/
def s0 : Settings := ⟨0, 1, 10, 1, 0, 2, 1⟩

/-- Everything triangulates and is robust, hash order is list order. -/
def ω0 : Oracle Shift where
  triangulates _ _ := true
  robust _ _ := true
  biRobust _ _ := true
  disagrees _ _ := none
  order l := l
  sort l := l
  optimise _ _ _ := some (⟨0⟩, ⟨0⟩)
  constrain _ _ _ := some ⟨0⟩
  loss _ _ _ := 0

theorem fair0 : ω0.Fair := ⟨fun _ => .refl _, fun _ => .refl _⟩

def addFrames : Nat → List (Op Shift)
  | 0 => []
  | n + 1 => .addFrame 0 2 :: addFrames n

/-- A feed with six frames of two features. -/
def e1 : Data Shift := (run Data.empty (.addFeed :: addFrames 6)).getD d1
def initA : Op Shift := .addReconstruction 0 1 2 ⟨0⟩ ⟨1⟩ ⟨2⟩ [(0, 0, 0)] [(1, 1)] []
def initB : Op Shift := .addReconstruction 3 4 5 ⟨0⟩ ⟨1⟩ ⟨2⟩ [(0, 0, 0), (1, 1, 1)] [] []
def e2 : Data Shift := (step e1 initA).getD d1
def e3 : Data Shift := (step e2 initB).getD d1
def A3 : Recon Shift := (e3.recons.get 0).getD Recon.empty
def B3 : Recon Shift := (e3.recons.get 1).getD Recon.empty

theorem frames_reach (n : Nat) : ∀ {d d' : Data Shift}, Reachable d →
    (∃ fs, d.feeds.get 0 = some fs) → run d (addFrames n) = some d' → Reachable d' := by
  induction n with
  | zero => intro d d' h _ e; cases e; exact h
  | succ n ih =>
    intro d d' h hf e
    obtain ⟨fs, hf⟩ := hf
    simp only [addFrames, run] at e
    cases hs : step d (.addFrame 0 2) with
    | none => rw [hs] at e; cases e
    | some d1 =>
      rw [hs] at e
      refine ih (.step (op := .addFrame 0 2) h ⟨fs, hf⟩ hs) ?_ e
      have hs' : d.addFrame 0 2 = some d1 := hs
      unfold Data.addFrame at hs'
      rw [hf] at hs'
      cases hs'
      exact ⟨_, by rw [SlotMap.get_modify, if_pos rfl, hf]; rfl⟩

theorem reach_e1 : Reachable e1 := by
  have h1 : Reachable d1 := .step (op := .addFeed) .init trivial rfl
  exact frames_reach 6 h1 ⟨[], rfl⟩ rfl

theorem reach_e2 : Reachable e2 := by
  refine .step (op := initA) reach_e1 ?_ rfl
  refine ⟨by decide, by decide, by decide, ⟨2, _, rfl, rfl, rfl⟩, ⟨2, _, rfl, rfl, rfl⟩,
    2, ⟨_, rfl, rfl, rfl⟩, ?_, ?_⟩
  all_goals
    constructor
    · intro f c h
      simp at h
      omega
    · intro f g c h h'
      simp at h h'
      omega

/-- Two reconstructions of three views. -/
theorem reach_e3 : Reachable e3 := by
  refine .step (op := initB) reach_e2 ?_ rfl
  refine ⟨by decide, by decide, by decide, ⟨2, _, rfl, rfl, rfl⟩, ⟨2, _, rfl, rfl, rfl⟩,
    2, ⟨_, rfl, rfl, rfl⟩, ?_, ?_⟩
  all_goals
    constructor
    · intro f c h
      simp at h
      omega
    · intro f g c h h'
      simp at h h'
      omega

theorem listsA : A3.views.map.entries.map (fun e => e.2.landmarks) = [[0, 1], [0, 1], [0, 2]] := rfl
theorem listsB : B3.views.map.entries.map (fun e => e.2.landmarks) = [[0, 1], [0, 1], [0, 1]] := rfl

/-- Source landmark 0 is destination landmark 0. -/
def m0 : FMap Nat := ⟨[(0, 0)]⟩

end Ex

/-- The second reconstruction of the example is moved into the first, with one common landmark. -/
example : Valid Ex.e3 (.incorporateReconstruction (fun _ => Ex.ω0) Ex.s0 id 1 0 Ex.m0) ∧
    ((step Ex.e3 (.incorporateReconstruction (fun _ => Ex.ω0) Ex.s0 id 1 0 Ex.m0)).bind
      (fun d => d.recons.get 0)).map
        (fun R => R.views.map.entries.map (fun e => e.2.landmarks)) =
      some [[0, 1], [0, 1], [0, 2], [0, 3], [0, 3], [0, 3]] := by
  refine ⟨⟨fun _ => Ex.fair0, by decide, Ex.B3, Ex.A3, rfl, rfl, ?_, ?_⟩, rfl⟩
  · intro s s' x h h'
    have h1 := FMap.mem_of_get h
    have h2 := FMap.mem_of_get h'
    simp [Ex.m0] at h1 h2
    omega
  · intro s x h
    have h1 := FMap.mem_of_get h
    simp [Ex.m0] at h1
    obtain ⟨rfl, rfl⟩ := h1
    exact ⟨_, rfl⟩

/-! ## C61 -/

/-- Matches for the linking view: its feature 0 is destination landmark 0, its feature 1 is not
matched. -/
def Ex.ms0 : FMap (List Nat) := ⟨[(0, [0])]⟩

theorem Ex.validMerge : Valid Ex.e3
    (.tryMerge Ex.ω0 (fun _ => Ex.ω0) Ex.s0 id 1 0 0 ⟨5⟩ Ex.ms0) := by
  have hg : ∀ f ls, Ex.ms0.get f = some ls → f = 0 ∧ ls = [0] := by
    intro f ls h
    have h1 := FMap.mem_of_get h
    simp [Ex.ms0] at h1
    exact h1
  refine ⟨Ex.fair0, fun _ => Ex.fair0, by decide, ?_, Ex.B3, Ex.A3, _, rfl, rfl, rfl, ?_, ?_, ?_⟩
  · unfold FMap.WF; decide
  · intro f ls h
    obtain ⟨rfl, _⟩ := hg f ls h
    decide
  · intro f ls _ h
    obtain ⟨rfl, rfl⟩ := hg f ls h
    exact Or.inl ⟨0, rfl, _, rfl⟩
  · intro f g ls ms _ _ hne h h'
    obtain ⟨rfl, rfl⟩ := hg f ls h
    obtain ⟨rfl, rfl⟩ := hg g ms h'
    exact absurd rfl hne

/-- **C61** (negation) Merging can lose a co-observation of the linking view: in the source,
feature 1 of the linking view 0 and feature 1 of view 1 belong to one landmark; after the
successful merge the views have keys 3 and 4, both with their frames, and the features belong to
different landmarks, because only matched features of the linking view enter the landmark map. -/
theorem C61_merge_loses_shared_landmark : ∃ (d d' : Data Ex.Shift) (S D' : Recon Ex.Shift)
    (op : Op Ex.Shift), Reachable d ∧ Valid d op ∧ step d op = some d' ∧
    op = .tryMerge Ex.ω0 (fun _ => Ex.ω0) Ex.s0 id 1 0 0 ⟨5⟩ Ex.ms0 ∧
    d.recons.get 1 = some S ∧ d'.recons.get 1 = none ∧ d'.recons.get 0 = some D' ∧
    (S.views.get 0).map (·.frame) = (D'.views.get 3).map (·.frame) ∧
    (S.views.get 1).map (·.frame) = (D'.views.get 4).map (·.frame) ∧
    S.SameLandmark 0 1 1 1 ∧ (∃ l, D'.Assigned 3 1 l) ∧ (∃ l, D'.Assigned 4 1 l) ∧
    ¬ D'.SameLandmark 3 1 4 1 := by
  refine ⟨Ex.e3, _, Ex.B3, _, _, Ex.reach_e3, Ex.validMerge, rfl, rfl, rfl, rfl, rfl, rfl, rfl,
    ⟨1, ⟨_, rfl, rfl⟩, ⟨_, rfl, rfl⟩⟩, ⟨3, _, rfl, rfl⟩, ⟨4, _, rfl, rfl⟩, ?_⟩
  rintro ⟨l, ⟨V, hV, hl⟩, ⟨W, hW, hl'⟩⟩
  cases hV
  cases hW
  cases hl
  cases hl'

/-- **C61** What holds when the merge succeeds: co-observations between the moved views are
exactly kept, and those of a matched feature of the linking view as well. Missing: unmatched
features of the linking view (see the negation above). -/
theorem C61_merge_keeps_shared_landmarks_partial {d : Data P} (h : Reachable d) (ω : Oracle P)
    (ω' : Nat → Oracle P) (s : Settings) (tr : P → P) {src sv dst : Nat} (pose : P)
    {ms : FMap (List Nat)} {S : Recon P} {d' : Data P}
    (hv : Valid d (.tryMerge ω ω' s tr src sv dst pose ms))
    (hS : d.recons.get src = some S)
    (hstep : d.tryMerge ω ω' s tr src sv dst pose ms = some (d', true)) :
    ∃ (D' : Recon P) (link : Nat) (to : Nat → Nat), d'.recons.get dst = some D' ∧
      d'.recons.get src = none ∧
      (∃ W, D'.views.get link = some W ∧ W.pose = pose ∧
        (S.views.get sv).map (fun V => (V.frame, V.landmarks.length)) =
          some (W.frame, W.landmarks.length)) ∧
      (∀ v w, S.LiveView v → S.LiveView w → v ≠ sv → w ≠ sv → to v = to w → v = w) ∧
      (∀ v, S.LiveView v → v ≠ sv → to v ≠ link) ∧
      -- the other views arrive or are dropped
      (∀ v V, S.views.get v = some V → v ≠ sv →
        (∃ W, D'.views.get (to v) = some W ∧ W.frame = V.frame ∧ W.pose = tr V.pose ∧
          W.landmarks.length = V.landmarks.length) ∨
        (D'.views.get (to v) = none ∧ ∃ F, d'.frames.get V.frame = some F ∧ F.view = none)) ∧
      -- co-observations between them
      (∀ v f w g, S.LiveView v → S.LiveView w → v ≠ sv → w ≠ sv → D'.LiveView (to v) →
        D'.LiveView (to w) → (D'.SameLandmark (to v) f (to w) g ↔ S.SameLandmark v f w g)) ∧
      -- co-observations with a matched feature of the linking view
      (∀ f w g ls, ms.get f = some ls → S.LiveView w → w ≠ sv → D'.LiveView (to w) →
        (D'.SameLandmark link f (to w) g ↔ S.SameLandmark sv f w g)) := by
  have hd := reachable_consistent h
  obtain ⟨hω, hω', hne, hwf, S0, D, V, hS0, hD, hV, hdom, hms⟩ := hv
  rw [hS] at hS0
  cases hS0
  obtain ⟨d1, D', b, h1, hc, h2, _, _, _, _, _, _, hb⟩ :=
    Data.tryMerge_spec ω hω ω' hω' s tr hne hd hS hV hD pose hwf hdom hms
  rw [hstep] at h1
  cases h1
  obtain ⟨hsrc, ⟨lms, hlink, hlen, hmat⟩, _, m', hinj, hmap, hmov⟩ := hb rfl
  have hidx : ∀ v V, S.views.get v = some V → v ≠ sv →
      (S.views.erase sv).keys[(S.views.erase sv).keys.idxOf v]? = some v := by
    intro v V hV hvs
    have hm : v ∈ (S.views.erase sv).keys := (SlotMap.mem_keys_iff _ _).mpr
      ⟨V, by rw [SlotMap.get_erase, if_neg hvs]; exact hV⟩
    rw [List.getElem?_eq_getElem (List.idxOf_lt_length_of_mem hm)]
    simp
  have hmoved : ∀ v V W, S.views.get v = some V → v ≠ sv →
      D'.views.get (D.views.next + 1 + (S.views.erase sv).keys.idxOf v) = some W →
      W.landmarks.length = V.landmarks.length ∧
      ∀ (f sl : Nat), V.landmarks[f]? = some sl → ∃ dl, W.landmarks[f]? = some dl ∧
        m'.get sl = some dl := by
    intro v V W hV hvs hW
    rcases hmov _ v V (hidx v V hV hvs) hV with ⟨W', e, _, _, h1, h2⟩ | ⟨e, _⟩
    · rw [hW] at e; cases e; exact ⟨h1, h2⟩
    · rw [hW] at e; cases e
  have hto : ∀ v f l, v ≠ sv →
      D'.LiveView (D.views.next + 1 + (S.views.erase sv).keys.idxOf v) → S.Assigned v f l →
      ∃ x, D'.Assigned (D.views.next + 1 + (S.views.erase sv).keys.idxOf v) f x ∧
        m'.get l = some x := by
    rintro v f l hvs ⟨W, hW⟩ ⟨V, hV, hl⟩
    obtain ⟨_, h⟩ := hmoved v V W hV hvs hW
    obtain ⟨x, hx, hm⟩ := h f l hl
    exact ⟨x, ⟨W, hW, hx⟩, hm⟩
  have hfrom : ∀ v f x, S.LiveView v → v ≠ sv →
      D'.Assigned (D.views.next + 1 + (S.views.erase sv).keys.idxOf v) f x →
      ∃ l, S.Assigned v f l ∧ m'.get l = some x := by
    rintro v f x ⟨V, hV⟩ hvs ⟨W, hW, hx⟩
    obtain ⟨hlen, h⟩ := hmoved v V W hV hvs hW
    have hlt : f < V.landmarks.length := by
      rw [← hlen]
      rcases Nat.lt_or_ge f W.landmarks.length with h | h
      · exact h
      · rw [List.getElem?_eq_none h] at hx; cases hx
    obtain ⟨x', hx', hm⟩ := h f _ (List.getElem?_eq_getElem hlt)
    rw [hx] at hx'
    cases hx'
    exact ⟨_, ⟨V, hV, List.getElem?_eq_getElem hlt⟩, hm⟩
  -- a matched feature of the linking view
  have hlk : ∀ f ls, ms.get f = some ls → ∃ l x, S.Assigned sv f l ∧
      D'.Assigned D.views.next f x ∧ m'.get l = some x := by
    intro f ls hf
    have hlt := hdom f ls hf
    have hx : lms[f]? = some (lms[f]'(by omega)) := List.getElem?_eq_getElem (by omega)
    have hl : V.landmarks[f]? = some V.landmarks[f] := List.getElem?_eq_getElem hlt
    exact ⟨_, _, ⟨V, hV, hl⟩, ⟨_, hlink, hx⟩, hmap f _ ls _ hl hf (hmat f _ ls hx hf)⟩
  refine ⟨D', D.views.next, fun v => D.views.next + 1 + (S.views.erase sv).keys.idxOf v, h2, hsrc,
    ⟨_, hlink, rfl, by rw [hV]; simp [hlen]⟩, ?_, ?_, ?_, ?_, ?_⟩
  · rintro v w ⟨V, hV⟩ ⟨W, hW⟩ hvs hws e
    have e' : (S.views.erase sv).keys.idxOf v = (S.views.erase sv).keys.idxOf w := by
      have : D.views.next + 1 + (S.views.erase sv).keys.idxOf v =
        D.views.next + 1 + (S.views.erase sv).keys.idxOf w := e
      omega
    have h1 := hidx v V hV hvs
    rw [e', hidx w W hW hws] at h1
    exact (Option.some.inj h1).symm
  · intro v _ _ e
    have : D.views.next + 1 + (S.views.erase sv).keys.idxOf v = D.views.next := e
    omega
  · intro v V hV hvs
    rcases hmov _ v V (hidx v V hV hvs) hV with ⟨W, e, a, b, c, _⟩ | ⟨e, h, _⟩
    · exact Or.inl ⟨W, e, a, b, c⟩
    · exact Or.inr ⟨e, h⟩
  · intro v f w g hv hw hvs hws hlv hlw
    constructor
    · rintro ⟨x, h1, h2⟩
      obtain ⟨l, hl, e⟩ := hfrom v f x hv hvs h1
      obtain ⟨l', hl', e'⟩ := hfrom w g x hw hws h2
      cases hinj l l' x e e'
      exact ⟨l, hl, hl'⟩
    · rintro ⟨l, h1, h2⟩
      obtain ⟨x, hx, e⟩ := hto v f l hvs hlv h1
      obtain ⟨y, hy, e'⟩ := hto w g l hws hlw h2
      rw [e] at e'
      cases e'
      exact ⟨x, hx, hy⟩
  · intro f w g ls hf hw hws hlw
    obtain ⟨l, x, hl, hx, e⟩ := hlk f ls hf
    constructor
    · rintro ⟨y, h1, h2⟩
      cases Recon.assigned_unique h1 hx
      obtain ⟨l', hl', e'⟩ := hfrom w g _ hw hws h2
      cases hinj l l' _ e e'
      exact ⟨l, hl, hl'⟩
    · rintro ⟨l', h1, h2⟩
      cases Recon.assigned_unique h1 hl
      obtain ⟨y, hy, e'⟩ := hto w g l hws hlw h2
      rw [e] at e'
      cases e'
      exact ⟨x, hx, hy⟩

/-- The example merge succeeds. -/
example : Reachable Ex.e3 ∧
    Valid Ex.e3 (.tryMerge Ex.ω0 (fun _ => Ex.ω0) Ex.s0 id 1 0 0 ⟨5⟩ Ex.ms0) ∧
    (Ex.e3.tryMerge Ex.ω0 (fun _ => Ex.ω0) Ex.s0 id 1 0 0 ⟨5⟩ Ex.ms0).map Prod.snd = some true :=
  ⟨Ex.reach_e3, Ex.validMerge, rfl⟩

end Verif.Sfm
