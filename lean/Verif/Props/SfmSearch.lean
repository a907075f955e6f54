import Verif.Lemmas.SfmSearch
import Verif.Props.SfmExample

/-!
# C80: the frames tried for a match
-/

namespace Verif.Sfm

variable {P : Type}

/-- **C80** In any reachable state and for whatever different existing frames the similarity search
answers, the search for frames to match with does not panic, and it returns exactly

* for each reconstruction the views of the candidate frames, none twice and no empty list,
* the candidate frames without a view, none twice,

where a frame is a candidate if it is near the frame in its feed or among the first usable answers. -/
theorem C80_candidates [Mul P] [Inv P] {d : Data P} (h : Reachable d) (t : Tracking) {f : Nat}
    (hf : ∃ F, d.frames.get f = some F) {answers : List Nat} (hnd : answers.Nodup)
    (hlive : ∀ g, g ∈ answers → ∃ G, d.frames.get g = some G) :
    ∃ m free, findCandidates d t f answers = some (m, free) ∧ m.WF ∧ free.Nodup ∧
      (∀ r vs, m.get r = some vs → vs ≠ [] ∧ vs.Nodup) ∧
      (∀ r v, (∃ vs, m.get r = some vs ∧ v ∈ vs) ↔
        ∃ g G, d.Candidate t f answers g ∧ d.frames.get g = some G ∧ G.view = some (r, v)) ∧
      (∀ g, g ∈ free ↔
        d.Candidate t f answers g ∧ ∃ G, d.frames.get g = some G ∧ G.view = none) :=
  findCandidates_spec (reachable_consistent h) t hf hnd hlive

/-- **C80** What is returned can be used: the reconstructions and views exist, no view belongs to
the frame itself, and the free frames are other frames that exist and belong to no view. -/
theorem C80_usable [Mul P] [Inv P] {d : Data P} (h : Reachable d) (t : Tracking) {f : Nat}
    (hf : ∃ F, d.frames.get f = some F) {answers : List Nat} (hnd : answers.Nodup)
    (hlive : ∀ g, g ∈ answers → ∃ G, d.frames.get g = some G) {m : FMap (List Nat)}
    {free : List Nat} (he : findCandidates d t f answers = some (m, free)) :
    (∀ r vs v, m.get r = some vs → v ∈ vs →
      ∃ R V, d.recons.get r = some R ∧ R.views.get v = some V ∧ V.frame ≠ f) ∧
    (∀ g, g ∈ free → g ≠ f ∧ ∃ n, d.FreeFrame g n) := by
  have hd := reachable_consistent h
  obtain ⟨m', free', e, _, _, _, a4, a5⟩ := findCandidates_spec hd t hf hnd hlive
  rw [he] at e
  cases e
  have hne : ∀ g, d.Candidate t f answers g → g ≠ f := by
    rintro g (⟨hne, _⟩ | ⟨_, _, _, ⟨hne, _⟩, _⟩) e
    · exact hne e.symm
    · exact hne e.symm
  constructor
  · intro r vs v hr hv
    obtain ⟨g, G, h1, h2, h3⟩ := (a4 r v).mp ⟨vs, hr, hv⟩
    obtain ⟨R, V, e1, e2, e3⟩ := hd.frameView g G r v h2 h3
    exact ⟨R, V, e1, e2, e3 ▸ hne g h1⟩
  · intro g hg
    obtain ⟨h1, G, h2, h3⟩ := (a5 g).mp hg
    exact ⟨hne g h1, G.nfeat, G, h2, rfl, h3⟩

/-- **C80** At most the configured number of similar frames is used, and if fewer are used then
every usable answer is. -/
theorem C80_similar_count {d : Data P} (t : Tracking) (f : Nat) {answers : List Nat}
    (hnd : answers.Nodup) :
    ∃ us : List Nat, us.Nodup ∧ us.length ≤ t.similar ∧
      (∀ g, g ∈ us ↔ d.AmongSimilar t f answers g) ∧
      (us.length < t.similar → ∀ g, g ∈ answers → d.Distant t f g → g ∈ us) := by
  refine ⟨(usable d t f answers).take t.similar,
    List.Nodup.sublist (List.take_sublist _ _) (hnd.filter _), List.length_take_le _ _,
    mem_take_usable t hnd, ?_⟩
  intro hlt g hg hd
  rw [List.length_take] at hlt
  rw [List.take_of_length_le (by omega)]
  simp only [usable, List.mem_filter, decide_eq_true_eq]
  exact ⟨hg, hd⟩

/-- The setting for the number of recent frames counts the frame itself: `n` gives at most `n - 1`
frames before (or after) the frame in its feed; in particular 1 gives none at all. -/
theorem C80_recent_counts_itself {d : Data P} (hd : d.Consistent) {f n : Nat} {F : Frame}
    (hF : d.frames.get f = some F) {us : List Nat} (hus : us.Nodup)
    (hnear : ∀ g, g ∈ us → d.Near f g n)
    (hbefore : ∀ g G, g ∈ us → d.frames.get g = some G → G.feedFrame < F.feedFrame) :
    us.length ≤ n - 1 := by
  obtain ⟨fs, hfs, hpos⟩ := hd.frameFeed f F hF
  -- the frames sit at different positions among the last n - 1 before the frame
  have hsub : us ⊆ (fs.take F.feedFrame).drop (F.feedFrame + 1 - n) := by
    intro g hg
    obtain ⟨_, F', G, e1, e2, e3, e4, e5⟩ := hnear g hg
    rw [hF] at e1
    cases e1
    have hlt := hbefore g G hg e2
    obtain ⟨gs, g1, g2⟩ := hd.frameFeed g G e2
    rw [← e3, hfs] at g1
    cases g1
    rw [List.mem_iff_getElem?]
    refine ⟨G.feedFrame - (F.feedFrame + 1 - n), ?_⟩
    rw [List.getElem?_drop, show F.feedFrame + 1 - n + (G.feedFrame - (F.feedFrame + 1 - n)) =
      G.feedFrame by omega, List.getElem?_take, if_pos hlt]
    exact g2
  have hle := (List.subperm_of_subset hus hsub).length_le
  have hF' : F.feedFrame < fs.length := by
    rcases Nat.lt_or_ge F.feedFrame fs.length with h | h
    · exact h
    · rw [List.getElem?_eq_none h] at hpos
      cases hpos
  simp only [List.length_drop, List.length_take] at hle
  omega

/-! In the state with three views and one free frame of the same feed: with two recent frames only
the neighbour of the fourth frame is found, and the search for similar frames adds frame 0. -/
example : findCandidates Ex.d6 ⟨1, 2, 0⟩ 3 [3, 2, 0, 1] = some (⟨[(0, [2, 0])]⟩, []) := rfl
example : findCandidates Ex.d6 ⟨1, 2, 3⟩ 3 [3, 2, 1, 0] = some (⟨[(0, [2, 0])]⟩, []) := rfl
example : findCandidates Ex.d6 ⟨0, 4, 0⟩ 0 [] = some (⟨[(0, [1, 2])]⟩, [3]) := rfl
example : Reachable Ex.d6 ∧ (∃ F, Ex.d6.frames.get 3 = some F) ∧ [3, 2, 0, 1].Nodup ∧
    ∀ g, g ∈ [3, 2, 0, 1] → ∃ G, Ex.d6.frames.get g = some G := by
  refine ⟨Ex.reach6, ⟨_, rfl⟩, by decide, ?_⟩
  intro g hg
  simp only [List.mem_cons, List.not_mem_nil, or_false] at hg
  rcases hg with rfl | rfl | rfl | rfl <;> exact ⟨_, rfl⟩
/-- Setting 1: no recent frame, although the feed has three others. -/
example : findCandidates Ex.d6 ⟨0, 1, 0⟩ 3 [] = some (⟨[]⟩, []) := rfl

end Verif.Sfm
