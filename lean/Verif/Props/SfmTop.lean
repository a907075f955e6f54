import Verif.Lemmas.SfmTop

/-!
# C82, C83: the public interface of `VSlam`
-/

namespace Verif.Sfm

variable {P S : Type}

/-- **C82** No call of a public method panics or runs for ever: in every state reached by calls of
public methods, a call whose keys are live returns. -/
theorem C82_no_panic [Mul P] [Inv P] [LinearOrder S] {s : TopSettings} (hs : s.Sane) {d : Data P}
    (h : History S s d) {c : Call P S} (hc : c.Ok d) : ∃ d', c.run s d = some d' ∧ History S s d' := by
  obtain ⟨d', e, _⟩ := call_good hs (history_sound hs h) hc
  exact ⟨d', e, .call h hc e⟩

/-- **C82** `add_frame` with a feed that exists always returns the key of a new frame, however the
frame matches and whatever reconstructions are started, extended, merged or given up on the way. No
frame is lost. -/
theorem C82_add_frame [Mul P] [Inv P] [LinearOrder S] {s : TopSettings} (hs : s.Sane) {d : Data P}
    (h : History S s d) {o : FrameOracle P S} (ho : o.Fair) {feed : Nat}
    (hf : ∃ fs, d.feeds.get feed = some fs) (n : Nat) :
    ∃ d' f, addFrameTop o s d feed n = some (d', f) ∧ History S s d' ∧ d.frames.get f = none ∧
      ∀ g, (g = f ∨ ∃ G, d.frames.get g = some G) → ∃ G', d'.frames.get g = some G' := by
  obtain ⟨d', f, e, _, h1, h2⟩ := addFrameTop_good ho hs (history_sound hs h) hf n
  exact ⟨d', f, e, .call h (c := .addFrame o feed n) ⟨ho, hf⟩
    (by simp only [Call.run, e, Option.map_some]), h1, h2⟩

/-- **C82** All tables agree after any calls of public methods, in the sense of C01 to C04. -/
theorem C82_tables [Mul P] [Inv P] [LinearOrder S] {s : TopSettings} (hs : s.Sane) {d : Data P}
    (h : History S s d) : d.Consistent :=
  (history_sound hs h).cons

/-- **C82** No call removes a frame or a feed or changes the place of a frame in its feed or its
number of features, feeds only get longer, and keys of reconstructions are not handed out twice. -/
theorem C82_nothing_lost [Mul P] [Inv P] [LinearOrder S] {s : TopSettings} (hs : s.Sane) {d d' : Data P}
    (h : History S s d) {c : Call P S} (hrun : c.run s d = some d') :
    (∀ f F, d.frames.get f = some F → ∃ F', d'.frames.get f = some F' ∧ F'.feed = F.feed ∧
      F'.feedFrame = F.feedFrame ∧ F'.nfeat = F.nfeat) ∧
    (∀ k fs, d.feeds.get k = some fs → ∃ gs, d'.feeds.get k = some (fs ++ gs)) ∧
    d.recons.next ≤ d'.recons.next ∧
    ∀ r R', d'.recons.get r = some R' → r < d'.recons.next ∧
      (d.recons.get r = none → d.recons.next ≤ r) := by
  have hk : d.KeysOk := fun r R hR => (C82_tables hs h).reconsWF.fresh r R hR
  have g := call_grows hrun hk
  refine ⟨g.frameData, g.feedPrefix, g.recons.next, ?_⟩
  intro r R' hR'
  refine ⟨g.keysOk hk r R' hR', ?_⟩
  intro hn
  rcases g.recons.live r R' hR' with ⟨R, hR⟩ | h1
  · rw [hn] at hR
    cases hR
  · exact h1.1

/-- **C83** After any calls of public methods every reconstruction has at least three views, each of
a frame with at least three features. -/
theorem C83_three_views [Mul P] [Inv P] [LinearOrder S] {s : TopSettings} (hs : s.Sane) {d : Data P}
    (h : History S s d) {r : Nat} {R : Recon P} (hR : d.recons.get r = some R) :
    3 ≤ R.views.size ∧
    (∃ a b c, a ≠ b ∧ a ≠ c ∧ b ≠ c ∧ R.LiveView a ∧ R.LiveView b ∧ R.LiveView c) ∧
    ∀ v V, R.views.get v = some V →
      ∃ F, d.frames.get V.frame = some F ∧ F.view = some (r, v) ∧ 3 ≤ F.nfeat := by
  have hd := history_sound hs h
  refine ⟨ThreeViews.size (hd.three r R hR), hd.three r R hR, ?_⟩
  intro v V hV
  obtain ⟨F, h1, h2, h3⟩ := hd.cons.viewFrame r R v V hR hV
  exact ⟨F, h1, h2, h3 ▸ hd.features r R v V hR hV⟩

/-! ## Examples -/

namespace Ex

/-- Every question is answered in favour of the frame. -/
def yesOracle : Oracle Shift where
  triangulates _ _ := true
  robust _ _ := true
  biRobust _ _ := true
  disagrees _ _ := some (fun _ _ => false)
  order l := l
  sort l := l
  optimise _ _ _ := some (⟨0⟩, ⟨0⟩)
  constrain _ _ _ := some ⟨0⟩
  loss _ _ _ := 0

/-- Feature `i` looks like feature `i` of every other frame. -/
def topOracle : TopOracle Shift where
  ro _ := ⟨fun l => l, fun l => l.insertionSort (fun x y => x.2 ≤ y.2)⟩
  knn R _ f v :=
    match R.views.get v with
    | none => []
    | some V =>
      let n := V.landmarks.length
      if 3 ≤ n then [(f % n, 0), ((f + 1) % n, 100), ((f + 2) % n, 100)]
      else (List.range n).map (fun i => (i, 100))
  order _ l := l
  judge _ _ _ := some (⟨0⟩, fun _ _ => true)
  record := yesOracle
  merge _ := yesOracle
  tr _ _ p := p
  opt _ _ := yesOracle
  filt _ := yesOracle

def topStart (d : Data Shift) : StartOracle Shift where
  knn _ b i :=
    match d.frames.get b with
    | none => []
    | some B => if i < B.nfeat then [(i, 0), (if i = 0 then 1 else 0, 100)] else [(0, 0), (1, 100)]
  shuffleTwo l := l
  consensus _ _ l := some (⟨0⟩, List.range l.length)
  shuffleTri l := l
  robust _ _ _ _ _ _ _ := true
  ratio _ _ _ _ _ t := some t.1
  rescale p _ := p
  apart _ _ _ _ _ := true
  optimise _ _ _ ps _ := ps
  biRobust _ _ _ _ := true
  sort l := l.insertionSort (· ≤ ·)

/-- The frames found for the third frame are the first two, otherwise it is the frame before. -/
def topFrames : FrameOracle Shift where
  similar d f := ((if f = 2 then [0, 1] else [f - 1]).filter (fun g => (d.frames.get g).isSome))
  sort l := l
  first _ := topOracle
  start := topStart
  idp := ⟨0⟩
  second _ := topOracle

def topSettings (minRegister : Nat) : TopSettings where
  ops := ⟨0, 0, 10, 0, 0, 1, 1⟩
  start := startSettings
  tracking := ⟨5, 0, 0⟩
  betterBy := 24
  initialFeatures := 16
  minRegister := minRegister

theorem yes_fair : yesOracle.Fair := ⟨fun _ => .refl _, fun _ => .refl _⟩

theorem top_fair : topOracle.Fair where
  ro _ := ⟨fun _ => .refl _, fun l => List.perm_insertionSort _ l,
    fun l => by
      have := List.pairwise_insertionSort (fun x y : Nat × Nat => x.2 ≤ y.2) l
      exact this⟩
  range R frame f v V hV e he := by
    simp only [topOracle, hV] at he
    split at he
    · have hn : 0 < V.landmarks.length := by omega
      simp only [List.mem_cons, List.not_mem_nil, or_false] at he
      rcases he with rfl | rfl | rfl <;> exact Nat.mod_lt _ hn
    · obtain ⟨i, hi, rfl⟩ := List.mem_map.mp he
      exact List.mem_range.mp hi
  three R frame f v V hV h3 := by
    simp only [topOracle, hV, if_pos h3]
    refine ⟨?_, by simp⟩
    have hn : 0 < V.landmarks.length := by omega
    have key : ∀ a n : Nat, 3 ≤ n → (a + 1) % n ≠ a % n ∧ (a + 2) % n ≠ a % n := by
      intro a n hn
      have h1 := Nat.mod_lt a (by omega : 0 < n)
      rw [Nat.add_mod a 1, Nat.add_mod a 2, Nat.mod_eq_of_lt (by omega : 1 < n),
        Nat.mod_eq_of_lt (by omega : 2 < n)]
      constructor
      · rcases Nat.lt_or_ge (a % n + 1) n with h | h
        · rw [Nat.mod_eq_of_lt h]; omega
        · rw [Nat.mod_eq_sub_mod h, Nat.mod_eq_of_lt (by omega)]; omega
      · rcases Nat.lt_or_ge (a % n + 2) n with h | h
        · rw [Nat.mod_eq_of_lt h]; omega
        · rw [Nat.mod_eq_sub_mod h, Nat.mod_eq_of_lt (by omega)]; omega
    have k1 := key f _ h3
    have k2 := key (f + 1) _ h3
    simp only [List.map_cons, List.map_nil, List.nodup_cons, List.mem_cons, List.not_mem_nil,
      or_false, not_or, not_false_eq_true, List.nodup_nil, and_true]
    exact ⟨⟨k1.1.symm, k1.2.symm⟩, k2.1.symm⟩
  order _ _ := .refl _
  record := yes_fair
  merge _ := yes_fair
  finite _ _ _ _ _ _ _ := rfl

theorem topFrames_fair : topFrames.Fair where
  similarOnce d f := by
    refine List.Nodup.filter _ ?_
    split <;> simp
  similarLive d f g hg := by
    have := (List.mem_filter.mp hg).2
    exact Option.isSome_iff_exists.mp this
  sort _ := .refl _
  first _ := top_fair
  second _ := top_fair
  start d :=
    ⟨fun _ => .refl _, fun _ => .refl _, fun l => List.perm_insertionSort _ l,
      fun l => List.pairwise_insertionSort _ l, by
        intro a b l pose is h
        cases h
        exact ⟨List.nodup_range, fun i hi => List.mem_range.mp hi⟩⟩
  searches d := by
    intro a b A B i hA hB h2 h2' hi
    simp only [topFrames, topStart, hB]
    split
    · refine ⟨Nat.le_refl 2, ?_⟩
      intro e he
      simp only [List.mem_cons, List.not_mem_nil, or_false] at he
      rcases he with rfl | rfl
      · assumption
      · simp only
        split <;> omega
    · refine ⟨Nat.le_refl 2, ?_⟩
      intro e he
      simp only [List.mem_cons, List.not_mem_nil, or_false] at he
      rcases he with rfl | rfl <;> simp only <;> omega

theorem top_sane : (topSettings 16).Sane := ⟨by decide, by decide, by decide⟩

/-- Add frames with these numbers of features to feed 0. -/
def topRun (s : TopSettings) : List Nat → Data Shift → Option (Data Shift)
  | [], d => some d
  | n :: ns, d => (addFrameTop topFrames s d 0 n).bind (fun x => topRun s ns x.1)

theorem topRun_history {s : TopSettings} (ns : List Nat) : ∀ {d d' : Data Shift},
    History Nat s d → d.KeysOk → (∃ fs, d.feeds.get 0 = some fs) → topRun s ns d = some d' →
    History Nat s d' := by
  induction ns with
  | nil =>
    intro d d' h _ _ e
    cases e
    exact h
  | cons n ns ih =>
    intro d d' h hk hf e
    unfold topRun at e
    cases e1 : addFrameTop topFrames s d 0 n with
    | none => rw [e1] at e; cases e
    | some x =>
      obtain ⟨d1, f⟩ := x
      rw [e1] at e
      have g := grows_addFrameTop e1 hk
      refine ih (.call h (c := .addFrame topFrames 0 n) ⟨topFrames_fair, hf⟩
        (by simp only [Call.run, e1, Option.map_some])) (g.keysOk hk) ?_ e
      obtain ⟨fs, hfs⟩ := hf
      obtain ⟨gs, h⟩ := g.feedPrefix 0 fs hfs
      exact ⟨_, h⟩

theorem topKeys : (Data.empty.addFeed : Data Shift).KeysOk := by
  intro r R h
  cases h

/-- Reconstructions with the frames in them, and the frames with their places. -/
def summary (d : Data Shift) : List (Nat × List Nat) × List (Option (Nat × Nat)) :=
  (d.recons.map.entries.map (fun e => (e.1, e.2.views.map.entries.map (fun e => e.2.frame))),
    d.frames.map.entries.map (fun e => e.2.view))

end Ex

/-- The hypotheses can be met: five frames are added, the third one starts a reconstruction, the
fourth and the fifth are incorporated. -/
example : ∃ d, History Nat (Ex.topSettings 16) d ∧ Ex.summary d = ([(0, [2, 0, 1, 3, 4])],
    [some (0, 1), some (0, 2), some (0, 0), some (0, 3), some (0, 4)]) := by
  have h : (Ex.topRun (Ex.topSettings 16) [32, 32, 32, 32, 40] Data.empty.addFeed).map Ex.summary =
      some ([(0, [2, 0, 1, 3, 4])],
        [some (0, 1), some (0, 2), some (0, 0), some (0, 3), some (0, 4)]) := by decide +kernel
  obtain ⟨d, e, hd⟩ := Option.map_eq_some_iff.mp h
  exact ⟨d, Ex.topRun_history _ (.call .new (c := .addFeed) trivial rfl) Ex.topKeys ⟨[], rfl⟩ e, hd⟩

/-- **C82** The minimum number of landmarks of a registration must be at least three (it is 64 by
default): with zero, a frame with one feature is incorporated, and the next frame that matches it
makes `add_frame` panic (lib.rs 1511-1516 unwrap three candidates). -/
theorem C82_small_minimum_panics :
    ∃ (s : TopSettings) (o : FrameOracle Ex.Shift) (d : Data Ex.Shift), s.minRegister = 0 ∧
      0 < s.initialFeatures ∧ 0 < s.start.minScales ∧ o.Fair ∧ History Nat s d ∧
      (∃ fs, d.feeds.get 0 = some fs) ∧ addFrameTop o s d 0 1 = none := by
  have h : ((Ex.topRun (Ex.topSettings 0) [32, 32, 32, 1] Data.empty.addFeed).bind (fun d =>
      (addFrameTop Ex.topFrames (Ex.topSettings 0) d 0 1).map Prod.snd)).isNone = true := by
    decide +kernel
  have h' : ((Ex.topRun (Ex.topSettings 0) [32, 32, 32, 1] Data.empty.addFeed).bind (fun d =>
      d.feeds.get 0)).isSome = true := by decide +kernel
  cases e : Ex.topRun (Ex.topSettings 0) [32, 32, 32, 1] Data.empty.addFeed with
  | none => rw [e] at h'; cases h'
  | some d =>
    rw [e] at h h'
    refine ⟨Ex.topSettings 0, Ex.topFrames, d, rfl, by decide, by decide, Ex.topFrames_fair, ?_,
      Option.isSome_iff_exists.mp h', ?_⟩
    · exact Ex.topRun_history _ (.call .new (c := .addFeed) trivial rfl) Ex.topKeys ⟨[], rfl⟩ e
    · cases e2 : addFrameTop Ex.topFrames (Ex.topSettings 0) d 0 1 with
      | none => rfl
      | some x => simp [e2] at h

end Verif.Sfm
