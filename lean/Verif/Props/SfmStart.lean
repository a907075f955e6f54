import Verif.Lemmas.SfmStart
import Verif.Lemmas.SfmHistory
import Verif.Props.SfmExample
import Mathlib.Data.List.Sort

/-!
# C81: the start of a reconstruction
-/

namespace Verif.Sfm

variable {P S : Type} [LinearOrder S]

theorem tryPairs_spec {o : StartOracle P S} (ho : o.Fair) {s : StartSettings} (hms : 0 < s.minScales)
    {c nc : Nat} (prs : List (TwoView P × TwoView P))
    (hok : ∀ a b, (a, b) ∈ prs → (∃ n, PairsOk nc n a.pairs) ∧ ∃ n, PairsOk nc n b.pairs) :
    ∃ r, tryPairs o s c prs = some r ∧ ∀ st, r = some st → ∃ a b, (a, b) ∈ prs ∧
      st.first = a.frame ∧ st.second = b.frame ∧
      StartOk o s c st a.pose b.pose a.pairs b.pairs := by
  induction prs with
  | nil => exact ⟨none, rfl, by intro st h; cases h⟩
  | cons ab rest ih =>
    obtain ⟨a, b⟩ := ab
    obtain ⟨⟨na, ha⟩, nb, hb⟩ := hok a b (by simp)
    obtain ⟨r, e, hr⟩ := tryPair_spec ho hms (c := c) ha hb
    obtain ⟨r', e', hr'⟩ := ih (fun a b h => hok a b (by simp [h]))
    unfold tryPairs
    rw [e]
    cases r with
    | next =>
      refine ⟨r', e', ?_⟩
      intro st h
      obtain ⟨x, y, h1, h2⟩ := hr' st h
      exact ⟨x, y, by simp [h1], h2⟩
    | abort => exact ⟨none, rfl, by intro st h; cases h⟩
    | found p q cm fm sm =>
      refine ⟨_, rfl, ?_⟩
      intro st h
      cases h
      exact ⟨a, b, by simp, rfl, rfl, hr p q cm fm sm rfl⟩

/-- **C81** The search for two frames to start a reconstruction with never panics, whatever the
numeric code and the neighbour search answer. If it succeeds, it returns two of the options, in
their order, and the start is good (`StartOk`): the matches are exactly the two-view inliers that
are consistent with the returned poses, the second pose was put to the scale of the first by a
median, and enough matches common to the three frames are robust. -/
theorem C81_start {o : StartOracle P S} (ho : o.Fair) {s : StartSettings} (hms : 0 < s.minScales)
    {d : Data P} (hs : o.Searches d) {center : Nat} (hc : ∃ C, d.frames.get center = some C)
    {options : List Nat} (hopt : ∀ x, x ∈ options → ∃ X, d.frames.get x = some X) :
    ∃ r, initReconstruction o s d center options = some r ∧ ∀ st, r = some st →
      [st.first, st.second].Sublist options ∧
      ∃ pose₁ pose₂ ps₁ ps₂, TwoViewOf o s d center st.first pose₁ ps₁ ∧
        TwoViewOf o s d center st.second pose₂ ps₂ ∧ StartOk o s center st pose₁ pose₂ ps₁ ps₂ := by
  obtain ⟨C, hC⟩ := hc
  obtain ⟨ts, e, h1, h2⟩ := twoViews_spec (s := s) ho hs hC options hopt
  have hok : ∀ t, t ∈ ts → ∃ n, PairsOk C.nfeat n t.pairs := by
    intro t ht
    obtain ⟨X, hX⟩ := hopt t.frame (h1.subset (List.mem_map_of_mem ht))
    exact ⟨X.nfeat, (h2 t ht).ok hC hX⟩
  have hsub : ∀ a b, (a, b) ∈ combos ts → [a, b].Sublist ts := fun a b h =>
    (mem_combos ts a b).mp h
  obtain ⟨r, er, hr⟩ := tryPairs_spec ho hms (c := center) (nc := C.nfeat) (combos ts)
    (fun a b h => ⟨hok a ((hsub a b h).subset (by simp)), hok b ((hsub a b h).subset (by simp))⟩)
  unfold initReconstruction
  rw [hC]
  simp only [e, er]
  refine ⟨r, rfl, ?_⟩
  intro st hst
  obtain ⟨a, b, hab, e1, e2, hstart⟩ := hr st hst
  refine ⟨?_, a.pose, b.pose, a.pairs, b.pairs, ?_, ?_, hstart⟩
  · rw [e1, e2]
    exact ((hsub a b hab).map TwoView.frame).trans h1
  · rw [e1]
    exact h2 a ((hsub a b hab).subset (by simp))
  · rw [e2]
    exact h2 b ((hsub a b hab).subset (by simp))

/-- Values below a bound, each once. -/
theorem length_le_of_lt {α : Type} {l : List α} {f : α → Nat} {n : Nat}
    (hinj : ∀ x y, x ∈ l → y ∈ l → f x = f y → x = y) (hl : l.Nodup) (hlt : ∀ x, x ∈ l → f x < n) :
    l.length ≤ n := by
  have hnd : (l.map f).Nodup := List.Nodup.map_on (fun x hx y hy h => hinj x y hx hy h) hl
  have := (List.subperm_of_subset hnd (l₂ := List.range n) (by
    intro y hy
    obtain ⟨x, hx, rfl⟩ := List.mem_map.mp hy
    exact List.mem_range.mpr (hlt x hx))).length_le
  simpa using this

/-- **C81** The frames of a start have at least 32 features each. -/
theorem C81_enough_features {o : StartOracle P S} {s : StartSettings} {d : Data P} {center : Nat}
    {st : Start P} {pose₁ pose₂ : P} {ps₁ ps₂ : List (Nat × Nat)}
    (h1 : TwoViewOf o s d center st.first pose₁ ps₁)
    (h2 : TwoViewOf o s d center st.second pose₂ ps₂)
    (h : StartOk o s center st pose₁ pose₂ ps₁ ps₂) {C F G : Frame}
    (hC : d.frames.get center = some C) (hF : d.frames.get st.first = some F)
    (hG : d.frames.get st.second = some G) : 32 ≤ C.nfeat ∧ 32 ≤ F.nfeat ∧ 32 ≤ G.nfeat := by
  have k1 := h1.ok hC hF
  have k2 := h2.ok hC hG
  obtain ⟨m, common, initial, _, _, _, _, _, _, _, _, hopt, _⟩ := h.history
  cases hopt with
  | run n lvl ps ps' ms a1 a2 a3 a4 a5 =>
    have key : ∀ f : Tri → Nat, ∀ n, (∀ x y, x ∈ ms → y ∈ ms → f x = f y → x = y) →
        (∀ x, x ∈ ms → f x < n) → 32 ≤ n := fun f n hi hl =>
      Nat.le_trans a1 (length_le_of_lt hi a3 hl)
    refine ⟨key (fun t => t.1) _ ?_ ?_, key (fun t => t.2.1) _ ?_ ?_, key (fun t => t.2.2) _ ?_ ?_⟩
    · rintro ⟨c, f, g⟩ ⟨c', f', g'⟩ hx hy hc
      simp only at hc
      subst hc
      obtain ⟨x1, x2⟩ := (a4 _ hx).1
      obtain ⟨y1, y2⟩ := (a4 _ hy).1
      simp only at x1 x2 y1 y2
      rw [k1.left _ _ _ x1 y1, k2.left _ _ _ x2 y2]
    · intro x hx
      exact (k1.range _ (a4 x hx).1.1).1
    · rintro ⟨c, f, g⟩ ⟨c', f', g'⟩ hx hy hf
      simp only at hf
      subst hf
      obtain ⟨x1, x2⟩ := (a4 _ hx).1
      obtain ⟨y1, y2⟩ := (a4 _ hy).1
      simp only at x1 x2 y1 y2
      have := k1.right _ _ _ x1 y1
      subst this
      rw [k2.left _ _ _ x2 y2]
    · intro x hx
      exact (k1.range _ (a4 x hx).1.1).2
    · rintro ⟨c, f, g⟩ ⟨c', f', g'⟩ hx hy hg
      simp only at hg
      subst hg
      obtain ⟨x1, x2⟩ := (a4 _ hx).1
      obtain ⟨y1, y2⟩ := (a4 _ hy).1
      simp only at x1 x2 y1 y2
      have := k2.right _ _ _ x2 y2
      subst this
      rw [k1.left _ _ _ x1 y1]
    · intro x hx
      exact (k2.range _ (a4 x hx).1.2).2

/-- The frame is alive and in no reconstruction. -/
def Data.IsFree (d : Data P) (f : Nat) : Prop := ∃ F, d.frames.get f = some F ∧ F.view = none

/-- What `tryInit` does to the data when it starts the reconstruction `r` with `st`. -/
structure Started (d d' : Data P) (center r : Nat) (st : Start P) (idp : P) : Prop where
  /-- the key is new, everything else is unchanged -/
  fresh : d.recons.get r = none
  others : ∀ q, q ≠ r → d'.recons.get q = d.recons.get q
  feeds : d'.feeds = d.feeds
  frames : ∀ f, f ≠ center → f ≠ st.first → f ≠ st.second → d'.frames.get f = d.frames.get f
  features : ∀ f F F', d.frames.get f = some F → d'.frames.get f = some F' → F'.nfeat = F.nfeat
  /-- three views with the poses found, and nothing else -/
  recon : ∃ R, d'.recons.get r = some R ∧
    (∃ V, R.views.get 0 = some V ∧ V.frame = center ∧ V.pose = idp) ∧
    (∃ V, R.views.get 1 = some V ∧ V.frame = st.first ∧ V.pose = st.firstPose) ∧
    (∃ V, R.views.get 2 = some V ∧ V.frame = st.second ∧ V.pose = st.secondPose) ∧
    (∀ v V, R.views.get v = some V → v < 3) ∧
    R.constraints = SlotMap.empty.insert ⟨0, 1, 2, st.firstPose, st.secondPose⟩ ∧
    -- features share a landmark exactly if they are matched
    (∀ c f, (∃ l, R.Assigned 0 c l ∧ R.Assigned 1 f l) ↔
      (c, f) ∈ st.firstMatches ∨ ∃ g, (c, f, g) ∈ st.combined) ∧
    ∀ c g, (∃ l, R.Assigned 0 c l ∧ R.Assigned 2 g l) ↔
      (c, g) ∈ st.secondMatches ∨ ∃ f, (c, f, g) ∈ st.combined

theorem mem_swapped {m : List (Nat × Nat)} {t : List Tri} {g : Tri → Nat} {f c : Nat} :
    (f, c) ∈ m.map (fun m => (m.2, m.1)) ++ t.map (fun m => (g m, m.1)) ↔
      (c, f) ∈ m ∨ ∃ x, x ∈ t ∧ x.1 = c ∧ g x = f := by
  simp only [List.mem_append, List.mem_map, Prod.mk.injEq, Prod.exists]
  constructor
  · rintro (⟨a, b, h, rfl, rfl⟩ | ⟨a, b, e, h, rfl, rfl⟩)
    · exact Or.inl h
    · exact Or.inr ⟨a, b, e, h, rfl, rfl⟩
  · rintro (h | ⟨a, b, e, h, rfl, rfl⟩)
    · exact Or.inl ⟨c, f, h, rfl, rfl⟩
    · exact Or.inr ⟨a, b, e, h, rfl, rfl⟩

/-- **C81** `try_init` on a free frame with free frames as options: no panic, the tables stay
consistent, a failure changes nothing, and a success adds one reconstruction made of the start that
was found. -/
theorem C81_try_init {o : StartOracle P S} (ho : o.Fair) {s : StartSettings} (hms : 0 < s.minScales)
    {d : Data P} (hd : d.Consistent) (hs : o.Searches d) {center : Nat} (hc : d.IsFree center)
    {options : List Nat} (hopt : ∀ x, x ∈ options → d.IsFree x) (hnd : options.Nodup)
    (hno : center ∉ options) (idp : P) :
    ∃ d' x, tryInit o s idp d center options = some (d', x) ∧ d'.Consistent ∧
      (x = none → d' = d) ∧
      ∀ r, x = some r → ∃ st pose₁ pose₂ ps₁ ps₂,
        [st.first, st.second].Sublist options ∧
        TwoViewOf o s d center st.first pose₁ ps₁ ∧ TwoViewOf o s d center st.second pose₂ ps₂ ∧
        StartOk o s center st pose₁ pose₂ ps₁ ps₂ ∧ Started d d' center r st idp := by
  obtain ⟨C, hC, hCv⟩ := hc
  obtain ⟨r, e, hr⟩ := C81_start ho hms hs ⟨C, hC⟩ (options := options)
    (fun x hx => (hopt x hx).imp fun _ h => h.1)
  unfold tryInit
  rw [e]
  cases r with
  | none => exact ⟨d, none, rfl, hd, fun _ => rfl, by intro r h; cases h⟩
  | some st =>
    obtain ⟨hsub, pose₁, pose₂, ps₁, ps₂, h1, h2, hst⟩ := hr st rfl
    have hm1 : st.first ∈ options := hsub.subset (by simp)
    have hm2 : st.second ∈ options := hsub.subset (by simp)
    obtain ⟨F, hF, hFv⟩ := hopt _ hm1
    obtain ⟨G, hG, hGv⟩ := hopt _ hm2
    have hfs : st.first ≠ st.second := by
      have := hnd.sublist hsub
      simpa using this
    have k1 := h1.ok hC hF
    have k2 := h2.ok hC hG
    have in1 : ∀ f c, (f, c) ∈ st.firstMatches.map (fun m => (m.2, m.1)) ++
        st.combined.map (fun m => (m.2.1, m.1)) → (c, f) ∈ ps₁ := by
      intro f c h
      rcases mem_swapped.mp h with h | ⟨x, hx, rfl, rfl⟩
      · exact ((hst.first _ _).mp h).1
      · exact ((hst.combined _).mp hx).1.1
    have in2 : ∀ f c, (f, c) ∈ st.secondMatches.map (fun m => (m.2, m.1)) ++
        st.combined.map (fun m => (m.2.2, m.1)) → (c, f) ∈ ps₂ := by
      intro f c h
      rcases mem_swapped.mp h with h | ⟨x, hx, rfl, rfl⟩
      · exact ((hst.second _ _).mp h).1
      · exact ((hst.combined _).mp hx).1.2
    obtain ⟨d', R, e', hcons, hnext, hR, hoth, hfeeds, hfr, fc, f1, f2, v0, v1, v2, vlt, hcon,
        s1, s2, m1, m2⟩ := Data.addReconstruction_spec hd (center := center) (first := st.first)
      (second := st.second) (fun h => hno (h ▸ hm1)) (fun h => hno (h ▸ hm2)) hfs hC hF hG hCv hFv
      hGv idp st.firstPose st.secondPose (combined := st.combined) (m1 := st.firstMatches)
      (m2 := st.secondMatches)
      ⟨fun f c h => (k1.range _ (in1 f c h)).1, fun f g c h h' => k1.left c f g (in1 _ _ h) (in1 _ _ h')⟩
      ⟨fun f c h => (k2.range _ (in2 f c h)).1, fun f g c h h' => k2.left c f g (in2 _ _ h) (in2 _ _ h')⟩
    simp only [e']
    refine ⟨d', some d.recons.next, rfl, hcons, by simp, ?_⟩
    intro r hr
    cases hr
    refine ⟨st, pose₁, pose₂, ps₁, ps₂, hsub, h1, h2, hst, ?_⟩
    refine ⟨?_, hoth, hfeeds, hfr, ?_, R, hR, v0, v1, v2, vlt, hcon, ?_, ?_⟩
    · cases hq : d.recons.get d.recons.next with
      | none => rfl
      | some Q =>
        have := hd.reconsWF.fresh _ _ hq
        omega
    · intro f X X' hX hX'
      by_cases q1 : f = center
      · subst q1
        rw [fc] at hX'
        rw [hC] at hX
        cases hX
        cases hX'
        rfl
      by_cases q2 : f = st.first
      · subst q2
        rw [f1] at hX'
        rw [hF] at hX
        cases hX
        cases hX'
        rfl
      by_cases q3 : f = st.second
      · subst q3
        rw [f2] at hX'
        rw [hG] at hX
        cases hX
        cases hX'
        rfl
      rw [hfr f q1 q2 q3, hX] at hX'
      cases hX'
      rfl
    · intro c f
      constructor
      · rintro ⟨l, a, b⟩
        rcases mem_swapped.mp (s1 f l c b a) with h | ⟨⟨x, y, z⟩, h, rfl, rfl⟩
        · exact Or.inl h
        · exact Or.inr ⟨z, h⟩
      · intro h
        have hin : (f, c) ∈ st.firstMatches.map (fun m => (m.2, m.1)) ++
            st.combined.map (fun m => (m.2.1, m.1)) := by
          rcases h with h | ⟨g, h⟩
          · exact mem_swapped.mpr (Or.inl h)
          · exact mem_swapped.mpr (Or.inr ⟨_, h, rfl, rfl⟩)
        obtain ⟨l, c', a, b⟩ := m1 f c hin (k1.range _ (in1 f c hin)).2
        have : c' = c := k1.right _ _ f (in1 f c' (s1 f l c' a b)) (in1 f c hin)
        subst this
        exact ⟨l, b, a⟩
    · intro c g
      constructor
      · rintro ⟨l, a, b⟩
        rcases mem_swapped.mp (s2 g l c b a) with h | ⟨⟨x, y, z⟩, h, rfl, rfl⟩
        · exact Or.inl h
        · exact Or.inr ⟨y, h⟩
      · intro h
        have hin : (g, c) ∈ st.secondMatches.map (fun m => (m.2, m.1)) ++
            st.combined.map (fun m => (m.2.2, m.1)) := by
          rcases h with h | ⟨f, h⟩
          · exact mem_swapped.mpr (Or.inl h)
          · exact mem_swapped.mpr (Or.inr ⟨_, h, rfl, rfl⟩)
        obtain ⟨l, c', a, b⟩ := m2 g c hin (k2.range _ (in2 g c hin)).2
        have : c' = c := k2.right _ _ g (in2 g c' (s2 g l c' a b)) (in2 g c hin)
        subst this
        exact ⟨l, b, a⟩

/-! ## Which pairs are tried -/

/-- **C81** A pair of frames is given up exactly when the consensus over its mutual matches finds no pose or fewer
inliers than required. -/
theorem C81_pair_given_up {o : StartOracle P S} (ho : o.Fair) {s : StartSettings} {d : Data P} (hs : o.Searches d)
    {a b : Nat} {A B : Frame} (hA : d.frames.get a = some A) (hB : d.frames.get b = some B) :
    ∃ r all, initTwoView o s a b A.nfeat B.nfeat = some r ∧ all.Nodup ∧
      (∀ i j, (i, j) ∈ all ↔ MutualMatch o s d a b i j) ∧
      (r = none ↔ ∀ pose is, o.consensus a b all = some (pose, is) → is.length < s.minTwoView) := by
  obtain ⟨all, e, h1, h2⟩ := symmetric_mutual (s := s) hs hA hB
  have hp := ho.shuffleTwo all
  unfold initTwoView
  simp only [e]
  cases hc : o.consensus a b (o.shuffleTwo all) with
  | none =>
    exact ⟨none, _, rfl, hp.nodup_iff.2 h1, fun i j => hp.mem_iff.trans (h2 i j), by rw [hc]; simp⟩
  | some r =>
    obtain ⟨pose, is⟩ := r
    obtain ⟨_, hr⟩ := ho.inliers a b _ pose is hc
    obtain ⟨xs, ex, a1, _⟩ := pick_spec is hr
    simp only [ex]
    by_cases hlt : xs.length < s.minTwoView
    · rw [if_pos hlt]
      refine ⟨none, _, rfl, hp.nodup_iff.2 h1, fun i j => hp.mem_iff.trans (h2 i j), ?_⟩
      rw [hc]
      refine ⟨fun _ pose' is' he => ?_, fun _ => rfl⟩
      cases he
      omega
    · rw [if_neg hlt]
      refine ⟨_, _, rfl, hp.nodup_iff.2 h1, fun i j => hp.mem_iff.trans (h2 i j), ?_⟩
      rw [hc]
      refine ⟨fun h => (by cases h), fun h => ?_⟩
      have := h pose is rfl
      omega

/-- The two-view match of one option. -/
def optionView (o : StartOracle P S) (s : StartSettings) (d : Data P) (center nc x : Nat) :
    Option (TwoView P) :=
  match d.frames.get x with
  | none => none
  | some X =>
    match initTwoView o s center x nc X.nfeat with
    | some (some (pose, ps)) => some ⟨x, pose, ps⟩
    | _ => none

omit [LinearOrder S] in
theorem optionView_frame {o : StartOracle P S} {s : StartSettings} {d : Data P} {center nc x : Nat}
    {t : TwoView P} (h : optionView o s d center nc x = some t) : t.frame = x := by
  unfold optionView at h
  split at h
  · cases h
  · split at h
    · cases h
      rfl
    · cases h

theorem twoViews_eq {o : StartOracle P S} (ho : o.Fair) {s : StartSettings} {d : Data P}
    (hs : o.Searches d) {center : Nat} {C : Frame} (hC : d.frames.get center = some C)
    (options : List Nat) (hopt : ∀ x, x ∈ options → ∃ X, d.frames.get x = some X) :
    twoViews o s d center C.nfeat options =
      some (options.filterMap (optionView o s d center C.nfeat)) := by
  induction options with
  | nil => rfl
  | cons x xs ih =>
    obtain ⟨X, hX⟩ := hopt x (by simp)
    obtain ⟨ts, e, _⟩ := twoViews_spec (s := s) ho hs hC [x]
      (fun y hy => hopt y (by simp at hy; simp [hy]))
    unfold twoViews
    unfold twoViews at e
    rw [List.filterMap_cons, ih (fun y hy => hopt y (by simp [hy]))]
    rw [hX] at e ⊢
    simp only [twoViews] at e
    unfold optionView
    simp only [hX]
    cases hi : initTwoView o s center x C.nfeat X.nfeat with
    | none => rw [hi] at e; simp at e
    | some y =>
      cases y with
      | none => rfl
      | some pp => rfl

theorem init_eq {o : StartOracle P S} (ho : o.Fair) {s : StartSettings} {d : Data P}
    (hs : o.Searches d) {center : Nat} {C : Frame} (hC : d.frames.get center = some C)
    {options : List Nat} (hopt : ∀ x, x ∈ options → ∃ X, d.frames.get x = some X) :
    initReconstruction o s d center options =
      tryPairs o s center (combos (options.filterMap (optionView o s d center C.nfeat))) := by
  unfold initReconstruction
  rw [hC]
  simp only [twoViews_eq ho hs hC options hopt]

omit [LinearOrder S] in
theorem tryPairs_some {o : StartOracle P S} {s : StartSettings} {c : Nat} {st : Start P}
    (prs : List (TwoView P × TwoView P)) (h : tryPairs o s c prs = some (some st)) :
    ∃ a b, (a, b) ∈ prs ∧ a.frame = st.first ∧ b.frame = st.second ∧
      tryPairs o s c [(a, b)] = some (some st) := by
  induction prs with
  | nil => cases h
  | cons ab rest ih =>
    obtain ⟨a, b⟩ := ab
    unfold tryPairs at h
    cases e : tryPair o s c a b with
    | none => rw [e] at h; cases h
    | some r =>
      rw [e] at h
      cases r with
      | next =>
        obtain ⟨x, y, h1, h2⟩ := ih h
        exact ⟨x, y, by simp [h1], h2⟩
      | abort => cases h
      | found p q cm fm sm =>
        refine ⟨a, b, by simp, ?_, ?_, ?_⟩
        · cases h; rfl
        · cases h; rfl
        · unfold tryPairs
          rw [e]
          exact h

omit [LinearOrder S] in
/-- The pair does not end the search. -/
theorem tryPair_abort {o : StartOracle P S} {s : StartSettings} (hp : s.minPairs = 0) {c : Nat}
    {a b : TwoView P} : tryPair o s c a b ≠ some .abort := by
  unfold tryPair
  simp only
  split
  · simp
  · split
    · simp
    · rw [hp]
      simp only [Nat.not_lt_zero, if_false]
      split
      · simp
      · split
        · unfold finishPair
          simp only
          split
          · simp
          · split <;> simp
        · simp

omit [LinearOrder S] in
theorem tryPairs_none {o : StartOracle P S} {s : StartSettings} (hp : s.minPairs = 0) {c : Nat}
    (prs : List (TwoView P × TwoView P)) (h : tryPairs o s c prs = some none) {a b : TwoView P}
    (hab : (a, b) ∈ prs) : tryPairs o s c [(a, b)] = some none := by
  induction prs with
  | nil => cases hab
  | cons xy rest ih =>
    obtain ⟨x, y⟩ := xy
    unfold tryPairs at h
    cases e : tryPair o s c x y with
    | none => rw [e] at h; cases h
    | some r =>
      rw [e] at h
      cases r with
      | next =>
        rcases List.mem_cons.mp hab with h1 | h1
        · cases h1
          unfold tryPairs
          rw [e]
          rfl
        · exact ih h h1
      | abort => exact absurd e (tryPair_abort hp)
      | found p q cm fm sm => cases h

omit [LinearOrder S] in
/-- The two-view matches of a pair of options. -/
theorem pair_views {o : StartOracle P S} {s : StartSettings} {d : Data P} {center nc : Nat}
    {options : List Nat} {x y : TwoView P}
    (h : [x, y].Sublist (options.filterMap (optionView o s d center nc))) :
    [x.frame, y.frame].Sublist options ∧
      [x.frame, y.frame].filterMap (optionView o s d center nc) = [x, y] := by
  have hmem : ∀ z, z ∈ options.filterMap (optionView o s d center nc) →
      optionView o s d center nc z.frame = some z := by
    intro z hz
    obtain ⟨w, _, hw⟩ := List.mem_filterMap.mp hz
    rw [optionView_frame hw]
    exact hw
  have hsub : ∀ l : List Nat,
      ((l.filterMap (optionView o s d center nc)).map TwoView.frame).Sublist l := by
    intro l
    induction l with
    | nil => simp
    | cons a l ih =>
      rw [List.filterMap_cons]
      cases e : optionView o s d center nc a with
      | none => exact ih.cons a
      | some t =>
        simp only [List.map_cons, optionView_frame e]
        exact ih.cons_cons a
  refine ⟨(h.map TwoView.frame).trans (hsub options), ?_⟩
  have hx := hmem x (h.subset (by simp))
  have hy := hmem y (h.subset (by simp))
  simp [hx, hy]

/-- **C81** The start found among many options is the one found when only its two frames are
offered: it does not depend on the other options. -/
theorem C81_same_as_pair {o : StartOracle P S} (ho : o.Fair) {s : StartSettings} {d : Data P}
    (hs : o.Searches d) {center : Nat} (hc : ∃ C, d.frames.get center = some C)
    {options : List Nat} (hopt : ∀ x, x ∈ options → ∃ X, d.frames.get x = some X) {st : Start P}
    (h : initReconstruction o s d center options = some (some st)) :
    [st.first, st.second].Sublist options ∧
      initReconstruction o s d center [st.first, st.second] = some (some st) := by
  obtain ⟨C, hC⟩ := hc
  rw [init_eq ho hs hC hopt] at h
  obtain ⟨a, b, hab, e1, e2, hst⟩ := tryPairs_some _ h
  obtain ⟨h1, h2⟩ := pair_views ((mem_combos _ a b).mp hab)
  rw [e1, e2] at h1 h2
  refine ⟨h1, ?_⟩
  rw [init_eq ho hs hC (fun x hx => hopt x (h1.subset hx)), h2]
  exact hst

/-- **C81** If no minimum of pairs in different directions is set, the search fails only if it
fails for every two of the options. With a minimum it can give up early, see
`C81_gives_up_false`. -/
theorem C81_complete_partial {o : StartOracle P S} (ho : o.Fair) {s : StartSettings}
    (hp : s.minPairs = 0) {d : Data P}
    (hs : o.Searches d) {center : Nat} (hc : ∃ C, d.frames.get center = some C)
    {options : List Nat} (hopt : ∀ x, x ∈ options → ∃ X, d.frames.get x = some X)
    (h : initReconstruction o s d center options = some none) {a b : Nat}
    (hab : [a, b].Sublist options) : initReconstruction o s d center [a, b] = some none := by
  obtain ⟨C, hC⟩ := hc
  rw [init_eq ho hs hC hopt] at h
  rw [init_eq ho hs hC (fun x hx => hopt x (hab.subset hx))]
  have hsub := hab.filterMap (optionView o s d center C.nfeat)
  match e : [a, b].filterMap (optionView o s d center C.nfeat) with
  | [] => rfl
  | [x] => rfl
  | [x, y] =>
    rw [e] at hsub
    exact tryPairs_none hp _ h ((mem_combos _ x y).mpr hsub)
  | x :: y :: z :: l =>
    have := List.length_filterMap_le (optionView o s d center C.nfeat) [a, b]
    rw [e] at this
    simp at this

/-! ## A concrete search -/

namespace Ex

/-- Four frames with 32 features. Feature `i` of one frame looks like feature `i` of every other
frame. All matches are robust, but those of frames 0, 1 and 2 lie in one direction. -/
def startData : Data Unit :=
  let d := Data.empty.addFeed
  (((d.addFrame 0 32).bind (·.addFrame 0 32)).bind (·.addFrame 0 32)).bind (·.addFrame 0 32)
    |>.getD d

def startOracle : StartOracle Unit where
  knn _ _ i := [(i, 0), (if i = 0 then 1 else 0, 100)]
  shuffleTwo l := l
  consensus _ _ l := some ((), List.range l.length)
  shuffleTri l := l
  robust _ _ _ _ _ _ _ := true
  ratio _ _ _ _ _ t := some t.1
  rescale _ _ := ()
  apart _ f g _ _ := !(f == 1 && g == 2)
  optimise _ _ _ ps _ := ps
  biRobust _ _ _ _ := true
  sort l := l.insertionSort (· ≤ ·)

def startSettings : StartSettings where
  betterBy := 24
  minTwoView := 16
  minScales := 16
  optLandmarks := 1000
  minPairs := 3
  filterIterations := 1
  minThreeView := 24

theorem start_fair : startOracle.Fair where
  shuffleTwo _ := List.Perm.refl _
  shuffleTri _ := List.Perm.refl _
  sort l := List.perm_insertionSort _ l
  sorted l := List.pairwise_insertionSort _ l
  inliers a b l pose is h := by
    cases h
    exact ⟨List.nodup_range, fun i hi => List.mem_range.mp hi⟩

theorem start_live {x : Nat} (h : x < 4) :
    startData.frames.get x = some ⟨0, x, 32, none⟩ := by
  match x, h with
  | 0, _ => rfl
  | 1, _ => rfl
  | 2, _ => rfl
  | 3, _ => rfl

theorem start_searches : startOracle.Searches startData := by
  intro a b A B i hA hB h2 h2' hi
  refine ⟨Nat.le_refl 2, ?_⟩
  intro e he
  have hAB : ∀ x X, startData.frames.get x = some X → X.nfeat = 32 := by
    intro x X hX
    match x with
    | 0 => cases hX; rfl
    | 1 => cases hX; rfl
    | 2 => cases hX; rfl
    | 3 => cases hX; rfl
    | n + 4 => cases hX
  rw [hAB b B hB]
  rw [hAB a A hA] at hi
  simp [startOracle] at he
  rcases he with rfl | rfl
  · exact hi
  · simp only
    split <;> omega

/-- The two frames found, if any. -/
def startFrames (options : List Nat) : Option (Option (Nat × Nat)) :=
  (initReconstruction startOracle startSettings startData 0 options).map
    (Option.map (fun st => (st.first, st.second)))

theorem start_gives_up :
    initReconstruction startOracle startSettings startData 0 [1, 2, 3] = some none := by
  have h : startFrames [1, 2, 3] = some none := by decide +kernel
  unfold startFrames at h
  generalize initReconstruction startOracle startSettings startData 0 [1, 2, 3] = r at h
  match r, h with
  | some none, _ => rfl

theorem start_found {options : List Nat} {f g : Nat}
    (h : startFrames options = some (some (f, g))) :
    ∃ st, initReconstruction startOracle startSettings startData 0 options = some (some st) ∧
      st.first = f ∧ st.second = g := by
  unfold startFrames at h
  generalize initReconstruction startOracle startSettings startData 0 options = r at h
  match r, h with
  | some (some st), h =>
    simp at h
    exact ⟨st, rfl, h.1, h.2⟩

end Ex

/-- **C81** A failure does not mean that no two of the options can start a reconstruction: the search
gives up at the first pair with too few matches in different directions (lib.rs 1100-1106 return
instead of continuing), although a later pair would do. The answer even depends on the order in
which the options are given. -/
theorem C81_gives_up_false :
    ∃ (o : StartOracle Unit) (s : StartSettings) (d : Data Unit), o.Fair ∧ o.Searches d ∧
      0 < s.minScales ∧ (∀ x, x < 4 → d.IsFree x) ∧
      initReconstruction o s d 0 [1, 2, 3] = some none ∧
      (∃ st, initReconstruction o s d 0 [2, 3] = some (some st)) ∧
      ∃ st, initReconstruction o s d 0 [3, 2, 1] = some (some st) := by
  refine ⟨Ex.startOracle, Ex.startSettings, Ex.startData, Ex.start_fair, Ex.start_searches,
    by decide, fun x hx => ⟨_, Ex.start_live hx, rfl⟩, Ex.start_gives_up, ?_, ?_⟩
  · obtain ⟨st, h, _⟩ := Ex.start_found (options := [2, 3]) (f := 2) (g := 3) (by decide +kernel)
    exact ⟨st, h⟩
  · obtain ⟨st, h, _⟩ := Ex.start_found (options := [3, 2, 1]) (f := 3) (g := 2)
      (by decide +kernel)
    exact ⟨st, h⟩

/-- **C81** With the minimum number of scales set to zero, the search panics when no ratio of
distances can be computed (`ratios[0]` of an empty list, lib.rs 1053). -/
theorem C81_no_scales_panics :
    ∃ (o : StartOracle Unit) (s : StartSettings) (d : Data Unit), o.Fair ∧ o.Searches d ∧
      s.minScales = 0 ∧ (∀ x, x < 4 → d.IsFree x) ∧ initReconstruction o s d 0 [2, 3] = none := by
  refine ⟨{ Ex.startOracle with ratio := fun _ _ _ _ _ _ => none },
    { Ex.startSettings with minScales := 0 }, Ex.startData, ?_, Ex.start_searches, rfl,
    fun x hx => ⟨_, Ex.start_live hx, rfl⟩, ?_⟩
  · exact ⟨Ex.start_fair.1, Ex.start_fair.2, Ex.start_fair.3, Ex.start_fair.4, Ex.start_fair.5⟩
  · have : (initReconstruction { Ex.startOracle with ratio := fun _ _ _ _ _ _ => none }
        { Ex.startSettings with minScales := 0 } Ex.startData 0 [2, 3]).isNone = true := by
      decide +kernel
    simpa using this

/-- The hypotheses of `C81_start` and of `C81_same_as_pair` are met, with a start found. -/
example : ∃ st, initReconstruction Ex.startOracle Ex.startSettings Ex.startData 0 [2, 3] =
      some (some st) ∧ st.first = 2 ∧ st.second = 3 ∧ [st.first, st.second].Sublist [2, 3] := by
  obtain ⟨st, h, h1, h2⟩ := Ex.start_found (options := [2, 3]) (f := 2) (g := 3) (by decide +kernel)
  obtain ⟨r, e, hr⟩ := C81_start Ex.start_fair (by decide : 0 < Ex.startSettings.minScales)
    Ex.start_searches ⟨_, Ex.start_live (x := 0) (by decide)⟩ (options := [2, 3])
    (fun x hx => ⟨_, Ex.start_live (by simp at hx; omega)⟩)
  rw [h] at e
  cases e
  exact ⟨st, h, h1, h2, (hr st rfl).1⟩

/-- The hypotheses of `C81_try_init` are met, and a reconstruction is started. -/
example : ((tryInit Ex.startOracle Ex.startSettings () Ex.startData 0 [2, 3]).map
    (fun x => x.2)) = some (some 0) := by
  decide +kernel

/-- `C81_complete_partial` is met by a search that fails. -/
example : (initReconstruction { Ex.startOracle with robust := fun _ _ _ _ _ _ _ => false }
    { Ex.startSettings with minPairs := 0 } Ex.startData 0 [1, 2, 3]).map Option.isNone =
      some true := by
  decide +kernel

end Verif.Sfm
