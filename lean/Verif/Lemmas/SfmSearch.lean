import Verif.Spec.SfmSearch
import Verif.Lemmas.SfmHistory
import Mathlib.Data.List.Perm.Subperm

/-! Helper lemmas about the search for frames to match with. -/

namespace Verif.Sfm

variable {P : Type}

theorem absDifference_lt {x y n : Nat} : absDifference x y < n ↔ x < y + n ∧ y < x + n := by
  unfold absDifference
  split <;> omega

theorem Data.Consistent.feed_nodup {d : Data P} (hd : d.Consistent) {k : Nat} {fs : List Nat}
    (h : d.feeds.get k = some fs) : fs.Nodup := by
  refine List.pairwise_iff_getElem.mpr ?_
  intro i j hi hj hij e
  obtain ⟨F, h1, _, h3⟩ := hd.feedFrames k fs i _ h (List.getElem?_eq_getElem hi)
  obtain ⟨G, g1, _, g3⟩ := hd.feedFrames k fs j _ h (List.getElem?_eq_getElem hj)
  rw [← e] at g1
  rw [h1] at g1
  cases g1
  omega

theorem recentFrames_mem {d : Data P} (hd : d.Consistent) {f : Nat} {F : Frame} {fs : List Nat}
    (hF : d.frames.get f = some F) (hfs : d.feeds.get F.feed = some fs) (n g : Nat) :
    g ∈ recentFrames fs f F.feedFrame n ↔ d.Near f g n := by
  unfold recentFrames Data.Near
  simp only [List.mem_map, List.mem_filter, Bool.and_eq_true, bne_iff_ne, ne_eq, decide_eq_true_eq,
    Prod.exists, exists_and_right, exists_eq_right, List.mem_zipIdx_iff_getElem?]
  constructor
  · rintro ⟨i, hi, hne, hlt⟩
    obtain ⟨G, h1, h2, h3⟩ := hd.feedFrames _ _ _ _ hfs hi
    refine ⟨fun h => hne h.symm, F, G, hF, h1, h2.symm, ?_⟩
    rw [absDifference_lt] at hlt
    omega
  · rintro ⟨hne, F', G, h1, h2, h3, h4, h5⟩
    rw [hF] at h1
    cases h1
    obtain ⟨fs', e1, e2⟩ := hd.frameFeed g G h2
    rw [← h3, hfs] at e1
    cases e1
    exact ⟨G.feedFrame, e2, fun h => hne h.symm, absDifference_lt.mpr ⟨h4, h5⟩⟩

theorem recentFrames_nodup {fs : List Nat} (h : fs.Nodup) (f ix n : Nat) :
    (recentFrames fs f ix n).Nodup := by
  unfold recentFrames
  refine List.Nodup.sublist (List.Sublist.map _ List.filter_sublist) ?_
  rw [List.zipIdx_map_fst]
  exact h

theorem acceptSimilar_spec {d : Data P} (hd : d.Consistent) (t : Tracking) {f : Nat} {F : Frame}
    {fs : List Nat} (hF : d.frames.get f = some F) (hfs : d.feeds.get F.feed = some fs) {g : Nat}
    {G : Frame} (hG : d.frames.get g = some G) :
    ∃ b, acceptSimilar d f F (recentFrames fs f F.feedFrame t.recent) t.threshold g = some b ∧
      (b = true ↔ d.Distant t f g) := by
  unfold acceptSimilar
  rw [hG]
  refine ⟨_, rfl, ?_⟩
  simp only [Bool.not_eq_true', Bool.or_eq_false_iff, beq_eq_false_iff_ne, ne_eq,
    List.contains_eq_mem, decide_eq_false_iff_not, recentFrames_mem hd hF hfs, Bool.and_eq_false_iff,
    absDifference_lt]
  unfold Data.Distant
  constructor
  · rintro ⟨⟨h1, h2⟩, h3⟩
    refine ⟨fun h => h1 h.symm, h2, ?_⟩
    rintro ⟨_, F', G', e1, e2, e3, e4⟩
    rw [hF] at e1
    rw [hG] at e2
    cases e1
    cases e2
    rcases h3 with h3 | h3
    · exact h3 e3.symm
    · exact h3 e4
  · rintro ⟨h1, h2, h3⟩
    refine ⟨⟨fun h => h1 h.symm, h2⟩, ?_⟩
    by_cases hfeed : G.feed = F.feed
    · exact Or.inr fun h => h3 ⟨h1, F, G, hF, hG, hfeed.symm, h⟩
    · exact Or.inl hfeed

/-- The usable answers, in order. -/
noncomputable def usable (d : Data P) (t : Tracking) (f : Nat) (answers : List Nat) : List Nat :=
  open Classical in answers.filter (fun g => decide (d.Distant t f g))

theorem similarFrames_eq {d : Data P} (hd : d.Consistent) (t : Tracking) {f : Nat} {F : Frame}
    {fs : List Nat} (hF : d.frames.get f = some F) (hfs : d.feeds.get F.feed = some fs)
    (answers : List Nat) (hlive : ∀ g, g ∈ answers → ∃ G, d.frames.get g = some G) : ∀ n,
    similarFrames d f F (recentFrames fs f F.feedFrame t.recent) t.threshold n answers =
      some ((usable d t f answers).take n) := by
  induction answers with
  | nil => intro n; cases n <;> simp [similarFrames, usable]
  | cons g rest ih =>
    intro n
    cases n with
    | zero => simp [similarFrames]
    | succ n =>
      obtain ⟨G, hG⟩ := hlive g (by simp)
      obtain ⟨b, hb, hiff⟩ := acceptSimilar_spec hd t hF hfs hG
      have ih' := ih (fun g hg => hlive g (by simp [hg]))
      unfold similarFrames
      rw [hb]
      cases b with
      | true =>
        simp only [ih' n]
        simp [usable, hiff.mp rfl]
      | false =>
        have : ¬ d.Distant t f g := fun h => by simpa using hiff.mpr h
        simp only [ih' (n + 1)]
        simp [usable, this]

theorem mem_take_usable {d : Data P} (t : Tracking) {f : Nat} {answers : List Nat}
    (hnd : answers.Nodup) (g : Nat) :
    g ∈ (usable d t f answers).take t.similar ↔ d.AmongSimilar t f answers g := by
  classical
  have split : ∀ before after, answers = before ++ g :: after → d.Distant t f g →
      (g ∈ (usable d t f answers).take t.similar ↔ (usable d t f before).length < t.similar) := by
    intro before after e hg
    have e2 : usable d t f answers = usable d t f before ++ g :: usable d t f after := by
      simp [usable, e, hg]
    have hnd2 : (usable d t f answers).Nodup := hnd.filter _
    rw [e2] at hnd2 ⊢
    rw [List.take_append]
    have hnot : g ∉ usable d t f before := by
      intro h
      exact (List.nodup_append.mp hnd2).2.2 g h g (by simp) rfl
    constructor
    · intro h
      rcases List.mem_append.mp h with h | h
      · exact absurd (List.mem_of_mem_take h) hnot
      · by_contra hle
        rw [show t.similar - (usable d t f before).length = 0 by omega] at h
        simp at h
    · intro h
      refine List.mem_append.mpr (Or.inr ?_)
      obtain ⟨k, hk⟩ : ∃ k, t.similar - (usable d t f before).length = k + 1 :=
        ⟨t.similar - (usable d t f before).length - 1, by omega⟩
      rw [hk]
      simp
  constructor
  · intro h
    have hm : g ∈ usable d t f answers := List.mem_of_mem_take h
    have hm' : g ∈ answers ∧ d.Distant t f g := by simpa [usable] using hm
    obtain ⟨before, after, e⟩ := List.append_of_mem hm'.1
    refine ⟨before, after, e, hm'.2, ?_⟩
    intro us hus hsub
    refine Nat.lt_of_le_of_lt ?_ ((split before after e hm'.2).mp h)
    refine (List.subperm_of_subset hus ?_).length_le
    intro u hu
    simpa [usable] using hsub u hu
  · rintro ⟨before, after, e, hg, hus⟩
    refine (split before after e hg).mpr (hus _ ?_ ?_)
    · have := hnd
      rw [e] at this
      exact (List.nodup_append.mp this).1.filter _
    · intro u hu
      simpa [usable] using hu

theorem pushView_get (m : FMap (List Nat)) (r v q : Nat) :
    (pushView m r v).get q = if q = r then some ((m.get r).getD [] ++ [v]) else m.get q := by
  unfold pushView
  cases h : m.get r with
  | none =>
    rw [FMap.get_push]
    by_cases hq : q = r
    · subst hq; simp [h]
    · simp [hq]
  | some vs =>
    simp only [FMap.get_modify]
    by_cases hq : q = r
    · subst hq; simp [h]
    · simp [hq]

theorem pushView_wf {m : FMap (List Nat)} (h : m.WF) (r v : Nat) : (pushView m r v).WF := by
  unfold pushView
  cases hm : m.get r with
  | none => exact FMap.wf_push h hm _
  | some vs => exact FMap.wf_modify h _ _

theorem sortFrames_spec {d : Data P} (hd : d.Consistent) (fs : List Nat) :
    ∀ (m : FMap (List Nat)) (free : List Nat), fs.Nodup →
    (∀ f, f ∈ fs → ∃ F, d.frames.get f = some F) → m.WF →
    (∀ r vs, m.get r = some vs → vs ≠ [] ∧ vs.Nodup) →
    (∀ r vs v f F, m.get r = some vs → v ∈ vs → d.frames.get f = some F → F.view = some (r, v) →
      f ∉ fs) → free.Nodup → (∀ f, f ∈ free → f ∉ fs) →
    ∃ m' free', sortFrames d fs m free = some (m', free') ∧ m'.WF ∧ free'.Nodup ∧
      (∀ r vs, m'.get r = some vs → vs ≠ [] ∧ vs.Nodup) ∧
      (∀ r v, (∃ vs, m'.get r = some vs ∧ v ∈ vs) ↔ (∃ vs, m.get r = some vs ∧ v ∈ vs) ∨
        ∃ f F, f ∈ fs ∧ d.frames.get f = some F ∧ F.view = some (r, v)) ∧
      (∀ f, f ∈ free' ↔ f ∈ free ∨ f ∈ fs ∧ ∃ F, d.frames.get f = some F ∧ F.view = none) := by
  induction fs with
  | nil =>
    intro m free _ _ hm hv _ hf _
    exact ⟨m, free, rfl, hm, hf, hv, by simp, by simp⟩
  | cons f fs ih =>
    intro m free hnd hlive hm hv hno hf hfree
    obtain ⟨hnf, hnd⟩ := List.nodup_cons.mp hnd
    obtain ⟨F, hF⟩ := hlive f (by simp)
    unfold sortFrames
    rw [hF]
    rcases hFv : F.view with _ | ⟨r, v⟩
    · simp only [hFv]
      obtain ⟨m', free', e, a1, a2, a3, a4, a5⟩ := ih m (free ++ [f]) hnd
        (fun g hg => hlive g (by simp [hg])) hm hv
        (fun r vs v g G h1 h2 h3 h4 h5 => hno r vs v g G h1 h2 h3 h4 (by simp [h5]))
        (by
          rw [List.nodup_append]
          refine ⟨hf, by simp, ?_⟩
          intro a ha b hb hab
          simp only [List.mem_singleton] at hb
          subst hb
          subst hab
          exact hfree a ha (by simp))
        (by
          intro g hg
          rcases List.mem_append.mp hg with hg | hg
          · exact fun h => hfree g hg (by simp [h])
          · simp only [List.mem_singleton] at hg
            subst hg
            exact hnf)
      refine ⟨m', free', e, a1, a2, a3, ?_, ?_⟩
      · intro r v
        rw [a4]
        constructor
        · rintro (h | ⟨g, G, h1, h2, h3⟩)
          · exact Or.inl h
          · exact Or.inr ⟨g, G, by simp [h1], h2, h3⟩
        · rintro (h | ⟨g, G, h1, h2, h3⟩)
          · exact Or.inl h
          · rcases List.mem_cons.mp h1 with rfl | h1
            · rw [hF] at h2
              cases h2
              rw [hFv] at h3
              cases h3
            · exact Or.inr ⟨g, G, h1, h2, h3⟩
      · intro g
        rw [a5]
        constructor
        · rintro (h | ⟨h1, h2⟩)
          · rcases List.mem_append.mp h with h | h
            · exact Or.inl h
            · simp only [List.mem_singleton] at h
              subst h
              exact Or.inr ⟨by simp, F, hF, hFv⟩
          · exact Or.inr ⟨by simp [h1], h2⟩
        · rintro (h | ⟨h1, h2⟩)
          · exact Or.inl (by simp [h])
          · rcases List.mem_cons.mp h1 with rfl | h1
            · exact Or.inl (by simp)
            · exact Or.inr ⟨h1, h2⟩
    · simp only [hFv]
      have hview : ∀ g G, d.frames.get g = some G → G.view = some (r, v) → g = f := by
        intro g G hG hGv
        obtain ⟨R, V, e1, e2, e3⟩ := hd.frameView f F r v hF hFv
        obtain ⟨R', V', e1', e2', e3'⟩ := hd.frameView g G r v hG hGv
        rw [e1] at e1'
        cases e1'
        rw [e2] at e2'
        cases e2'
        rw [← e3, ← e3']
      have hold : ∀ vs, m.get r = some vs → v ∉ vs := fun vs h hmem =>
        hno r vs v f F h hmem hF hFv (by simp)
      obtain ⟨m', free', e, a1, a2, a3, a4, a5⟩ := ih (pushView m r v) free hnd
        (fun g hg => hlive g (by simp [hg])) (pushView_wf hm r v)
        (by
          intro q vs hq
          rw [pushView_get] at hq
          split at hq
          · cases hq
            refine ⟨by simp, ?_⟩
            rw [List.nodup_append]
            refine ⟨?_, by simp, ?_⟩
            · cases h : m.get r with
              | none => simp
              | some ws => exact (hv r ws h).2
            · intro a ha b hb hab
              simp only [List.mem_singleton] at hb
              subst hb
              subst hab
              cases h : m.get r with
              | none => simp [h] at ha
              | some ws => exact hold ws h (by simpa [h] using ha)
          · exact hv q vs hq)
        (by
          intro q vs w g G hq hw hG hGv hg
          rw [pushView_get] at hq
          split at hq
          · rename_i hqr
            cases hq
            rcases List.mem_append.mp hw with hw | hw
            · cases h : m.get r with
              | none => simp [h] at hw
              | some ws =>
                exact hno r ws w g G h (by simpa [h] using hw) hG (hqr ▸ hGv) (by simp [hg])
            · simp only [List.mem_singleton] at hw
              subst hw
              subst hqr
              have := hview g G hG hGv
              subst this
              exact hnf hg
          · exact hno q vs w g G hq hw hG hGv (by simp [hg]))
        hf (fun g hg h => hfree g hg (by simp [h]))
      refine ⟨m', free', e, a1, a2, a3, ?_, ?_⟩
      · intro q w
        rw [a4]
        constructor
        · rintro (⟨vs, hq, hw⟩ | ⟨g, G, h1, h2, h3⟩)
          · rw [pushView_get] at hq
            split at hq
            · rename_i hqr
              cases hq
              rcases List.mem_append.mp hw with hw | hw
              · cases h : m.get r with
                | none => simp [h] at hw
                | some ws => exact Or.inl ⟨ws, hqr ▸ h, by simpa [h] using hw⟩
              · simp only [List.mem_singleton] at hw
                subst hw
                subst hqr
                exact Or.inr ⟨f, F, by simp, hF, hFv⟩
            · exact Or.inl ⟨vs, hq, hw⟩
          · exact Or.inr ⟨g, G, by simp [h1], h2, h3⟩
        · rintro (⟨vs, hq, hw⟩ | ⟨g, G, h1, h2, h3⟩)
          · left
            rw [pushView_get]
            split
            · rename_i hqr
              subst hqr
              exact ⟨_, rfl, by simp [hq, hw]⟩
            · exact ⟨vs, hq, hw⟩
          · rcases List.mem_cons.mp h1 with rfl | h1
            · rw [hF] at h2
              cases h2
              rw [hFv] at h3
              cases h3
              left
              rw [pushView_get, if_pos rfl]
              exact ⟨_, rfl, by simp⟩
            · exact Or.inr ⟨g, G, h1, h2, h3⟩
      · intro g
        rw [a5]
        constructor
        · rintro (h | ⟨h1, h2⟩)
          · exact Or.inl h
          · exact Or.inr ⟨by simp [h1], h2⟩
        · rintro (h | ⟨h1, G, h2, h3⟩)
          · exact Or.inl h
          · rcases List.mem_cons.mp h1 with rfl | h1
            · rw [hF] at h2
              cases h2
              rw [hFv] at h3
              cases h3
            · exact Or.inr ⟨h1, G, h2, h3⟩

/-- The search in consistent data. -/
theorem findCandidates_spec {d : Data P} (hd : d.Consistent) (t : Tracking) {f : Nat}
    (hf : ∃ F, d.frames.get f = some F) {answers : List Nat} (hnd : answers.Nodup)
    (hlive : ∀ g, g ∈ answers → ∃ G, d.frames.get g = some G) :
    ∃ m free, findCandidates d t f answers = some (m, free) ∧ m.WF ∧ free.Nodup ∧
      (∀ r vs, m.get r = some vs → vs ≠ [] ∧ vs.Nodup) ∧
      (∀ r v, (∃ vs, m.get r = some vs ∧ v ∈ vs) ↔
        ∃ g G, d.Candidate t f answers g ∧ d.frames.get g = some G ∧ G.view = some (r, v)) ∧
      (∀ g, g ∈ free ↔
        d.Candidate t f answers g ∧ ∃ G, d.frames.get g = some G ∧ G.view = none) := by
  obtain ⟨F, hF⟩ := hf
  obtain ⟨fs, hfs, _⟩ := hd.frameFeed f F hF
  unfold findCandidates
  simp only [hF, hfs, similarFrames_eq hd t hF hfs answers hlive]
  have hmem : ∀ g, g ∈ recentFrames fs f F.feedFrame t.recent ++
      (usable d t f answers).take t.similar ↔ d.Candidate t f answers g := by
    intro g
    rw [List.mem_append, recentFrames_mem hd hF hfs, mem_take_usable t hnd]
    rfl
  have hcl : ∀ g, d.Candidate t f answers g → ∃ G, d.frames.get g = some G := by
    rintro g (⟨_, _, G, _, h, _⟩ | ⟨before, after, e, _⟩)
    · exact ⟨G, h⟩
    · exact hlive g (by simp [e])
  obtain ⟨m, free, e, a1, a2, a3, a4, a5⟩ := sortFrames_spec hd
    (recentFrames fs f F.feedFrame t.recent ++ (usable d t f answers).take t.similar) FMap.empty []
    (by
      rw [List.nodup_append]
      refine ⟨recentFrames_nodup (hd.feed_nodup hfs) _ _ _,
        (List.Nodup.sublist (List.take_sublist _ _) (hnd.filter _)), ?_⟩
      rintro a ha b hb rfl
      have h1 := (recentFrames_mem hd hF hfs t.recent a).mp ha
      have h2 : d.Distant t f a := by
        have := List.mem_of_mem_take hb
        simp only [usable, List.mem_filter, decide_eq_true_eq] at this
        exact this.2
      exact h2.2.1 h1)
    (fun g hg => hcl g ((hmem g).mp hg)) FMap.wf_empty (by intro r vs h; cases h)
    (by intro r vs v g G h; cases h) (by simp) (by simp)
  refine ⟨m, free, e, a1, a2, a3, ?_, ?_⟩
  · intro r v
    rw [a4]
    constructor
    · rintro (⟨vs, h, _⟩ | ⟨g, G, h1, h2⟩)
      · cases h
      · exact ⟨g, G, (hmem g).mp h1, h2⟩
    · rintro ⟨g, G, h1, h2⟩
      exact Or.inr ⟨g, G, (hmem g).mpr h1, h2⟩
  · intro g
    rw [a5, hmem]
    simp

end Verif.Sfm
