import Verif.Spec.SfmTop
import Verif.Lemmas.SfmSearch
import Verif.Lemmas.SfmGrows
import Verif.Props.SfmStart
import Verif.Props.SfmRegister

/-!
# Lemmas for the public interface
-/

namespace Verif.Sfm

variable {P S : Type} [LinearOrder S]

/-! ## Counting views -/

theorem ThreeViews.size {R : Recon P} (h : R.ThreeViews) : 3 ≤ R.views.size := by
  obtain ⟨a, b, c, hab, hac, hbc, ⟨A, hA⟩, ⟨B, hB⟩, ⟨C, hC⟩⟩ := h
  have mem : ∀ k V, R.views.get k = some V → k ∈ R.views.map.keys := by
    intro k V hk
    exact List.mem_map.mpr ⟨(k, V), FMap.mem_of_get hk, rfl⟩
  have hnd : [a, b, c].Nodup := by simp [hab, hac, hbc]
  have := (List.subperm_of_subset hnd (l₂ := R.views.map.keys) (by
    intro x hx
    simp only [List.mem_cons, List.not_mem_nil, or_false] at hx
    rcases hx with rfl | rfl | rfl
    · exact mem _ _ hA
    · exact mem _ _ hB
    · exact mem _ _ hC)).length_le
  rw [← FMap.size_eq_keys] at this
  exact this

/-- The same views live. -/
theorem ThreeViews.of_live {R R' : Recon P} (h : R.ThreeViews)
    (hl : ∀ v, R.LiveView v → R'.LiveView v) : R'.ThreeViews := by
  obtain ⟨a, b, c, hab, hac, hbc, hA, hB, hC⟩ := h
  exact ⟨a, b, c, hab, hac, hbc, hl a hA, hl b hB, hl c hC⟩

theorem live_of_shape {α : Type} {R R' : Recon P} {v : Nat} {f : View P → α}
    (h : (R'.views.get v).map f = (R.views.get v).map f) (hl : R.LiveView v) : R'.LiveView v := by
  obtain ⟨V, hV⟩ := hl
  rw [hV] at h
  cases h' : R'.views.get v with
  | none => rw [h'] at h; cases h
  | some V' => exact ⟨V', h'⟩

/-! ## What a call may do to the placed frames -/

/-- `d'` is consistent, all frames still exist, and every view belongs to a frame that had a view
with as many features before, or to frame `f`. -/
structure Moves (d d' : Data P) (f : Nat) : Prop where
  cons : d'.Consistent
  live : ∀ g G, d.frames.get g = some G → ∃ G', d'.frames.get g = some G' ∧ G'.nfeat = G.nfeat
  prov : ∀ q R' v V', d'.recons.get q = some R' → R'.views.get v = some V' → V'.frame = f ∨
    ∃ q0 R0 v0 V0, d.recons.get q0 = some R0 ∧ R0.views.get v0 = some V0 ∧ V0.frame = V'.frame

theorem Moves.refl {d : Data P} (h : d.Consistent) (f : Nat) : Moves d d f :=
  ⟨h, fun _ G h => ⟨G, h, rfl⟩, fun q R' v V' h1 h2 => Or.inr ⟨q, R', v, V', h1, h2, rfl⟩⟩

theorem Moves.trans {a b c : Data P} {f : Nat} (h : Moves a b f) (h' : Moves b c f) :
    Moves a c f := by
  refine ⟨h'.cons, ?_, ?_⟩
  · intro g G hG
    obtain ⟨G', h1, e1⟩ := h.live g G hG
    obtain ⟨G'', h2, e2⟩ := h'.live g G' h1
    exact ⟨G'', h2, e2.trans e1⟩
  · intro q R' v V' h1 h2
    rcases h'.prov q R' v V' h1 h2 with e | ⟨q0, R0, v0, V0, k1, k2, k3⟩
    · exact Or.inl e
    · rcases h.prov q0 R0 v0 V0 k1 k2 with e | ⟨q1, R1, v1, V1, l1, l2, l3⟩
      · exact Or.inl (k3 ▸ e)
      · exact Or.inr ⟨q1, R1, v1, V1, l1, l2, l3.trans k3⟩

theorem live_of_grows {d d' : Data P} (hd : d.Consistent) (h : d.GrowsK d') :
    ∀ g G, d.frames.get g = some G → ∃ G', d'.frames.get g = some G' ∧ G'.nfeat = G.nfeat := by
  intro g G hG
  obtain ⟨G', h1, _, _, h2⟩ := (h (fun r R hR => hd.reconsWF.fresh r R hR)).frameData g G hG
  exact ⟨G', h1, h2⟩

/-- A frame that is not placed stays so, unless it is `f`. -/
theorem Moves.free {d d' : Data P} {f g : Nat} (hd : d.Consistent) (h : Moves d d' f) (hne : g ≠ f)
    (hg : d.IsFree g) : d'.IsFree g := by
  obtain ⟨G, hG, hv⟩ := hg
  obtain ⟨G', hG', _⟩ := h.live g G hG
  refine ⟨G', hG', ?_⟩
  cases hview : G'.view with
  | none => rfl
  | some rv =>
    obtain ⟨r, v⟩ := rv
    obtain ⟨R', V', h1, h2, h3⟩ := h.cons.frameView g G' r v hG' hview
    rcases h.prov r R' v V' h1 h2 with e | ⟨q0, R0, v0, V0, k1, k2, k3⟩
    · exact absurd (h3.symm.trans e) hne
    · obtain ⟨F, hF, hFv, _⟩ := hd.viewFrame q0 R0 v0 V0 k1 k2
      rw [k3, h3, hG] at hF
      cases hF
      rw [hv] at hFv
      cases hFv

/-- Every view keeps three features. -/
theorem Moves.features {d d' : Data P} {f : Nat} (hd : d.Sound) (h : Moves d d' f)
    (hf : ∀ F', d'.frames.get f = some F' → F'.view ≠ none → 3 ≤ F'.nfeat) {r : Nat} {R : Recon P}
    {v : Nat} {V : View P} (hR : d'.recons.get r = some R) (hV : R.views.get v = some V) :
    3 ≤ V.landmarks.length := by
  obtain ⟨F, hF, hFv, hlen⟩ := h.cons.viewFrame r R v V hR hV
  rw [hlen]
  rcases h.prov r R v V hR hV with e | ⟨q0, R0, v0, V0, k1, k2, k3⟩
  · rw [e] at hF
    exact hf F hF (by rw [hFv]; simp)
  · obtain ⟨F0, hF0, _, hlen0⟩ := hd.cons.viewFrame q0 R0 v0 V0 k1 k2
    obtain ⟨F0', hF0', e⟩ := h.live _ _ hF0
    rw [k3, hF] at hF0'
    cases hF0'
    rw [e, ← hlen0]
    exact hd.features q0 R0 v0 V0 k1 k2

/-! ## Optimisation -/

theorem constrainViews_sublist (ω : Oracle P) {R : Recon P} {edges : List (Nat × Nat × P)}
    (vs : List Nat) : ∀ {us rs}, R.constrainViews ω edges vs = some (us, rs) →
    (us.map Prod.fst).Sublist vs ∧ (vs.Nodup → ∀ v, v ∈ us.map Prod.fst → v ∉ rs) := by
  induction vs with
  | nil =>
    intro us rs h
    simp only [Recon.constrainViews, Option.some.injEq, Prod.mk.injEq] at h
    obtain ⟨rfl, rfl⟩ := h
    exact ⟨by simp, by simp⟩
  | cons v vs ih =>
    intro us rs h
    unfold Recon.constrainViews at h
    split at h
    · rename_i p us' rs' _ hrest
      cases h
      obtain ⟨h1, h2⟩ := ih hrest
      refine ⟨by simpa using h1, ?_⟩
      intro hnd w hw
      rw [List.nodup_cons] at hnd
      rcases List.mem_cons.mp (by simpa using hw : w ∈ v :: us'.map Prod.fst) with rfl | hw
      · intro hr
        exact hnd.1 ((Data.constrainViews_ok ω vs hrest).2.1.subset hr)
      · exact h2 hnd.2 w hw
    · rename_i us' rs' _ hrest
      cases h
      obtain ⟨h1, h2⟩ := ih hrest
      refine ⟨h1.cons v, ?_⟩
      intro hnd w hw hr
      rw [List.nodup_cons] at hnd
      rcases List.mem_cons.mp hr with rfl | hr
      · exact hnd.1 (h1.subset hw)
      · exact h2 hnd.2 w hw hr
    · cases h

theorem applyLoop_three (ω : Nat → Oracle P) (r : Nat) (edges : List (Nat × Nat × P)) (n : Nat) :
    ∀ {d : Data P} {R : Recon P}, d.Consistent → d.recons.get r = some R → R.ThreeViews →
    ∀ {d'}, Data.applyLoop ω r edges n d = some (d', true) →
    ∀ R', d'.recons.get r = some R' → R'.ThreeViews := by
  induction n with
  | zero =>
    intro d R hd hR h3 d' h R' hR'
    cases h
    rw [hR] at hR'
    cases hR'
    exact h3
  | succ n ih =>
    intro d R hd hR h3 d' h
    unfold Data.applyLoop at h
    simp only [hR] at h
    split at h
    · cases h
    rename_i us rs hc
    obtain ⟨l1, l2, l3⟩ := Data.constrainLists_ok (ω n) (hd.recons r R hR) hc
    obtain ⟨s1, s2⟩ := constrainViews_sublist (ω n) _ hc
    have hnd : R.views.keys.Nodup := (hd.recons r R hR).viewsWF.nodup
    split at h
    · rename_i hlen
      obtain ⟨d1, R1, e1, hd1, hR1, _, _, _, _, _, hv, _, _⟩ :=
        Data.applyBundleAdjust_ok hd hR l1 l2 l3
      rw [e1] at h
      refine ih hd1 hR1 ?_ h
      -- three of the updated views
      match hus : us, hlen with
      | a :: b :: c :: rest, _ =>
        have hn := s1.nodup hnd
        simp only [List.map_cons, List.nodup_cons, List.mem_cons, not_or] at hn
        have lv : ∀ x, x ∈ a :: b :: c :: rest → R1.LiveView x.1 := by
          intro x hx
          obtain ⟨V, hV⟩ := l2 x hx
          have := hv x.1
          rw [if_neg (s2 hnd x.1 (List.mem_map_of_mem hx)), hV] at this
          exact ⟨_, this⟩
        exact ⟨a.1, b.1, c.1, hn.1.1, hn.1.2.1, hn.2.1.1, lv a (by simp), lv b (by simp),
          lv c (by simp)⟩
    · split at h <;> cases h

theorem Data.Sound.of_moves {d d' : Data P} (hd : d.Sound) (h : ∀ f, Moves d d' f)
    (three : ∀ r R, d'.recons.get r = some R → R.ThreeViews) : d'.Sound := by
  refine ⟨(h 0).cons, three, ?_⟩
  intro r R v V hR hV
  refine (h d'.frames.next).features hd ?_ hR hV
  intro F' hF'
  have := (h 0).cons.framesWF.fresh _ _ hF'
  omega

/-- The effect of the calls that place no frame and work on one reconstruction. -/
structure Tidies (d d' : Data P) (r : Nat) : Prop where
  sound : d'.Sound
  moves : ∀ f, Moves d d' f
  others : ∀ q, q ≠ r → d'.recons.get q = d.recons.get q

theorem Tidies.refl {d : Data P} (hd : d.Sound) (r : Nat) : Tidies d d r :=
  ⟨hd, Moves.refl hd.cons, fun _ _ => rfl⟩

theorem Tidies.trans {a b c : Data P} {r : Nat} (h : Tidies a b r) (h' : Tidies b c r) :
    Tidies a c r :=
  ⟨h'.sound, fun f => (h.moves f).trans (h'.moves f), fun q hq => (h'.others q hq).trans (h.others q hq)⟩

/-- A reconstruction loses views or is removed. -/
theorem tidies_of {d d' : Data P} (hd : d.Sound) {r : Nat} {R : Recon P}
    (hR : d.recons.get r = some R) (hc : d'.Consistent) (hg : d.GrowsK d')
    (ho : ∀ q, q ≠ r → d'.recons.get q = d.recons.get q)
    (hr : ∀ R', d'.recons.get r = some R' → R'.ThreeViews ∧
      ∀ w W', R'.views.get w = some W' → ∃ W, R.views.get w = some W ∧ W'.frame = W.frame) :
    Tidies d d' r := by
  have hm : ∀ f, Moves d d' f := by
    intro f
    refine ⟨hc, live_of_grows hd.cons hg, ?_⟩
    intro q R' v V' h1 h2
    right
    by_cases hq : q = r
    · subst hq
      obtain ⟨W, hW, e⟩ := (hr R' h1).2 v V' h2
      exact ⟨q, R, v, W, hR, hW, e.symm⟩
    · rw [ho q hq] at h1
      exact ⟨q, R', v, V', h1, h2, rfl⟩
  refine ⟨hd.of_moves hm ?_, hm, ho⟩
  intro q Q hQ
  by_cases hq : q = r
  · subst hq
    exact (hr Q hQ).1
  · rw [ho q hq] at hQ
    exact hd.three q Q hQ

theorem applyConstraints_good [Mul P] [Inv P] (ω : Nat → Oracle P)
    (hω : ∀ i, (ω i).FiniteUpdates) (s : Settings) {d : Data P} (hd : d.Sound)
    {r : Nat} {R : Recon P} (hR : d.recons.get r = some R) :
    ∃ d' b, d.applyConstraints ω s r = some (d', b) ∧ Tidies d d' r ∧
      (b = true → ∃ R', d'.recons.get r = some R') := by
  unfold Data.applyConstraints
  rw [hR]
  simp only
  obtain ⟨d', b, e⟩ := Data.applyLoop_total ω hω r R.flattenConstraints s.optIterations hd.cons hR
    (Data.flatten_good (hd.cons.recons r R hR))
  obtain ⟨a1, a2, a3, a4, a5, a6⟩ := Data.applyLoop_ok ω r _ _ hd.cons hR e
  refine ⟨d', b, e, ?_, fun hb => (a5 hb).imp fun _ h => h.1⟩
  refine tidies_of hd hR a1 (Data.grows_applyLoop ω r _ _ e) a4 ?_
  intro R' hR'
  cases b with
  | false =>
    rw [a6 rfl] at hR'
    cases hR'
  | true =>
    obtain ⟨R'', hR'', hv⟩ := a5 rfl
    rw [hR'] at hR''
    cases hR''
    refine ⟨applyLoop_three ω r _ _ hd.cons hR (hd.three r R hR) e R' hR', ?_⟩
    intro w W' hW'
    obtain ⟨W, h1, h2, _⟩ := hv w W' hW'
    exact ⟨W, h1, h2⟩

theorem filterObservations_good (ω : Oracle P) (s : Settings) {d : Data P} (hd : d.Sound)
    {r : Nat} {R : Recon P} (hR : d.recons.get r = some R) :
    ∃ d' b, d.filterObservations ω s r = some (d', b) ∧ Tidies d d' r ∧
      (b = true → ∃ R', d'.recons.get r = some R') := by
  obtain ⟨d', b, R', e, hc, _, _, ho, href, ht, hf⟩ := Data.filterObservations_ok ω s hd.cons hR
  refine ⟨d', b, e, ?_, fun hb => ⟨R', (ht hb).1⟩⟩
  refine tidies_of hd hR hc (Data.grows_filterObservations e) ho ?_
  intro R'' hR''
  cases b with
  | false =>
    rw [(hf rfl).1] at hR''
    cases hR''
  | true =>
    rw [(ht rfl).1] at hR''
    cases hR''
    refine ⟨ThreeViews.of_live (hd.three r R hR) (fun v hl => live_of_shape (href.views v) hl), ?_⟩
    intro w W' hW'
    have := href.views w
    rw [hW'] at this
    cases hW : R.views.get w with
    | none => rw [hW] at this; cases this
    | some W =>
      rw [hW] at this
      simp only [Option.map_some, Option.some.injEq, Prod.mk.injEq] at this
      exact ⟨W, rfl, this.1⟩

theorem optimizeLoop_good [Mul P] [Inv P] (ω : Nat → Nat → Oracle P) (ω' : Nat → Oracle P)
    (hω : ∀ i j, (ω i j).FiniteUpdates) (s : Settings) (r n : Nat) :
    ∀ {d : Data P} {R : Recon P}, d.Sound → d.recons.get r = some R →
    ∃ d' b, Data.optimizeLoop ω ω' s r n d = some (d', b) ∧ Tidies d d' r := by
  induction n with
  | zero =>
    intro d R hd hR
    exact ⟨d, true, rfl, Tidies.refl hd r⟩
  | succ n ih =>
    intro d R hd hR
    unfold Data.optimizeLoop
    obtain ⟨d1, b1, e1, t1, l1⟩ := applyConstraints_good (ω n) (hω n) s hd hR
    rw [e1]
    cases b1 with
    | false => exact ⟨d1, false, rfl, t1⟩
    | true =>
      obtain ⟨R1, hR1⟩ := l1 rfl
      obtain ⟨d2, b2, e2, t2, l2⟩ := filterObservations_good (ω' n) s t1.sound hR1
      simp only [e2]
      cases b2 with
      | false => exact ⟨d2, false, rfl, t1.trans t2⟩
      | true =>
        obtain ⟨R2, hR2⟩ := l2 rfl
        obtain ⟨d3, b3, e3, t3⟩ := ih t2.sound hR2
        exact ⟨d3, b3, e3, (t1.trans t2).trans t3⟩

theorem optimize_good [Mul P] [Inv P] (ω : Nat → Nat → Oracle P) (ω' : Nat → Oracle P)
    (hω : ∀ i j, (ω i j).FiniteUpdates) (s : Settings)
    {d : Data P} {r : Nat} {R : Recon P} (hd : d.Sound) (hR : d.recons.get r = some R) :
    ∃ d' b, d.optimizeReconstruction ω ω' s r = some (d', b) ∧ Tidies d d' r :=
  optimizeLoop_good ω ω' hω s r s.reconIterations hd hR

theorem optimizeTop_good [Mul P] [Inv P] {o : TopOracle P} (ho : o.Fair) (s : TopSettings)
    {d : Data P} {r : Nat} {R : Recon P} (hd : d.Sound) (hR : d.recons.get r = some R) :
    ∃ d', optimizeTop o s d r = some d' ∧ Tidies d d' r := by
  obtain ⟨d', b, e, t⟩ := optimize_good o.opt o.filt ho.finite s.ops hd hR
  unfold optimizeTop
  rw [e]
  exact ⟨d', rfl, t⟩

/-! ## Registration -/

theorem registerTop_good {o : TopOracle P} (ho : o.Fair) {s : TopSettings} (hs : s.Sane)
    {d : Data P} (hd : d.Sound) {r frame : Nat} {R : Recon P} {F : Frame}
    (hR : d.recons.get r = some R) (hF : d.frames.get frame = some F) {views : List Nat}
    (hne : views ≠ []) (hlive : ∀ v, v ∈ views → R.LiveView v) :
    ∃ x, registerTop o s d r frame views = some x ∧ ∀ pose ms, x = some (pose, ms) →
      ms.WF ∧ R.ValidMatches F.nfeat ms.get ∧ (∀ f ls, ms.get f = some ls → f < F.nfeat) ∧
      3 ≤ F.nfeat := by
  have hc := hd.cons.recons r R hR
  have hsearch : ∀ f, R.Searchable views (o.knn R frame f) := by
    intro f v hv
    obtain ⟨V, hV⟩ := hlive v hv
    exact ⟨V, hV, ho.range R frame f v V hV⟩
  have h3 : ∀ f, R.ThreeCandidates views (o.knn R frame f) := by
    intro f
    obtain ⟨v, hv⟩ := List.exists_mem_of_ne_nil views hne
    obtain ⟨V, hV⟩ := hlive v hv
    obtain ⟨hnd, hlen⟩ := ho.three R frame f v V hV (hd.features r R v V hR hV)
    match hk : o.knn R frame f v, hlen with
    | (i, x) :: (j, y) :: (k, z) :: rest, _ =>
      rw [hk] at hnd
      simp only [List.map_cons, List.nodup_cons, List.mem_cons, not_or] at hnd
      exact C14_three_features_suffice hc (hsearch f) hv hnd.1.1 hnd.1.2.1 hnd.2.1.1
        (x := x) (y := y) (z := z) (by simp [hk]) (by simp [hk]) (by simp [hk])
  unfold registerTop
  rw [hR, hF]
  simp only
  have hpow : F.nfeat ≤ s.initialFeatures * 2 ^ F.nfeat := by
    have h1 : F.nfeat ≤ 2 ^ F.nfeat := Nat.le_of_lt Nat.lt_two_pow_self
    calc F.nfeat ≤ 1 * 2 ^ F.nfeat := by omega
      _ ≤ _ := Nat.mul_le_mul_right _ hs.initial
  obtain ⟨rs, st, x, e, _⟩ := C13_progressive_registration (registerSubset o.ro s.betterBy R views
    (o.knn R frame) (o.order R) (o.judge R frame) s.minRegister) hs.initial hpow []
  rw [e]
  match x with
  | none => exact ⟨none, rfl, by intro _ _ h; cases h⟩
  | some none =>
    exact absurd e (C14_registration_no_panic hc ho.ro (fun f _ => hsearch f) (fun f _ => h3 f))
  | some (some (pose, ms)) =>
    refine ⟨some (pose, ms), rfl, ?_⟩
    intro pose' ms' h
    cases h
    obtain ⟨k1, k2, k3, k4⟩ := registration_matches hc ho.ro (fun f _ => hsearch f) (ho.order R) e
    refine ⟨k3, k2, fun f ls h => (k1 f ls h).1, ?_⟩
    have : ms.keys.length ≤ F.nfeat := by
      have := (List.subperm_of_subset k3 (l₂ := List.range F.nfeat) (by
        intro y hy
        obtain ⟨⟨f, ls⟩, hx, rfl⟩ := List.mem_map.mp hy
        exact List.mem_range.mpr (k1 f ls (FMap.get_of_mem k3 hx)).1)).length_le
      simpa using this
    rw [← FMap.size_eq_keys] at this
    have := hs.register
    omega

/-! ## Placing a frame -/

/-- The effect of a call that works on the reconstructions in `S` and may place frame `f`. -/
structure Places (d d' : Data P) (f : Nat) (S : Nat → Prop) : Prop where
  sound : d'.Sound
  moves : Moves d d' f
  others : ∀ q, ¬ S q → d'.recons.get q = d.recons.get q

theorem Places.refl {d : Data P} (hd : d.Sound) (f : Nat) (S : Nat → Prop) : Places d d f S :=
  ⟨hd, Moves.refl hd.cons f, fun _ _ => rfl⟩

theorem Tidies.places {d d' : Data P} {r : Nat} (h : Tidies d d' r) (f : Nat) {S : Nat → Prop}
    (hS : S r) : Places d d' f S :=
  ⟨h.sound, h.moves f, fun q hq => h.others q (fun e => hq (e ▸ hS))⟩

theorem Places.trans {a b c : Data P} {f : Nat} {S : Nat → Prop} (h : Places a b f S)
    (h' : Places b c f S) : Places a c f S :=
  ⟨h'.sound, h.moves.trans h'.moves, fun q hq => (h'.others q hq).trans (h.others q hq)⟩

/-- A frame outside the other reconstructions stays outside. -/
theorem Places.inside {d d' : Data P} {f : Nat} {S : Nat → Prop} (hd : d.Consistent)
    (h : Places d d' f S) {g : Nat} {G G' : Frame} (hG : d.frames.get g = some G)
    (hin : ∀ q v, G.view = some (q, v) → S q) (hG' : d'.frames.get g = some G') {q v : Nat}
    (hv : G'.view = some (q, v)) : S q := by
  apply Classical.byContradiction
  intro hq
  obtain ⟨R, V, h1, h2, h3⟩ := h.sound.cons.frameView g G' q v hG' hv
  rw [h.others q hq] at h1
  obtain ⟨F, hF, hFv, _⟩ := hd.viewFrame q R v V h1 h2
  rw [h3, hG] at hF
  cases hF
  exact hq (hin q v hFv)

theorem lt_next_of_live {d : Data P} (hd : d.Consistent) {r : Nat} {R : Recon P}
    (hR : d.recons.get r = some R) {w : Nat} (h : R.LiveView w) : w < R.views.next := by
  obtain ⟨W, hW⟩ := h
  exact (hd.recons r R hR).viewsWF.fresh w W hW

/-- Views after a frame was incorporated. -/
theorem incorporateFrame_moves {ω : Oracle P} (hω : ω.Fair) (s : Settings) {d : Data P} (hd : d.Consistent)
    {r frame : Nat} {R : Recon P} {F : Frame} (hR : d.recons.get r = some R) (hF : d.frames.get frame = some F)
    (hFv : F.view = none) (pose : P) {ex : Nat → Option (List Nat)} (hex : R.ValidMatches F.nfeat ex) {d' : Data P}
    {x : Option Nat} (h : d.incorporateFrame ω s r frame pose ex = some (d', x)) : Moves d d' frame := by
  obtain ⟨_, R', _, e', a1, a2, a3, a4, a5, a6, a7, _, a8, a9⟩ :=
    Data.incorporateFrame_spec ω hω s hd hR hF hFv pose hex
  rw [h] at e'
  cases e'
  refine ⟨a1, live_of_grows hd (Data.grows_incorporateFrame h), ?_⟩
  intro q Q v V' hQ hV'
  by_cases hq : q = r
  · subst hq
    rw [a5] at hQ
    cases hQ
    by_cases hw : v = R.views.next
    · subst hw
      rcases a9 with ⟨_, _, W, hW, hWf, _⟩ | ⟨_, _, hn⟩
      · rw [hV'] at hW
        cases hW
        exact Or.inl hWf
      · rw [hV'] at hn
        cases hn
    · right
      have := a8 v hw
      rw [hV'] at this
      cases hW : R.views.get v with
      | none => rw [hW] at this; cases this
      | some W =>
        rw [hW] at this
        simp only [Option.map_some, Option.some.injEq, Prod.mk.injEq] at this
        exact ⟨q, R, v, W, hR, hW, this.1.symm⟩
  · rw [a4 q hq] at hQ
    exact Or.inr ⟨q, Q, v, V', hQ, hV', rfl⟩

theorem incorporateTop_good {o : TopOracle P} (ho : o.Fair) {s : TopSettings} (hs : s.Sane)
    {d : Data P} (hd : d.Sound) {r frame : Nat} {R : Recon P} {F : Frame}
    (hR : d.recons.get r = some R) (hF : d.frames.get frame = some F) (hFv : F.view = none)
    {views : List Nat} (hne : views ≠ []) (hlive : ∀ v, v ∈ views → R.LiveView v) :
    ∃ d' x, incorporateTop o s d r frame views = some (d', x) ∧
      Places d d' frame (fun q => q = r) ∧ ∃ R', d'.recons.get r = some R' := by
  obtain ⟨x, e, hx⟩ := registerTop_good ho hs hd hR hF hne hlive
  unfold incorporateTop
  rw [e]
  match x with
  | none => exact ⟨d, none, rfl, Places.refl hd _ _, R, hR⟩
  | some (pose, ms) =>
    obtain ⟨_, k2, _, k4⟩ := hx pose ms rfl
    obtain ⟨d', R', x, e', a1, a2, a3, a4, a5, a6, a7, _, a8, a9⟩ :=
      Data.incorporateFrame_spec o.record ho.record s.ops hd.cons hR hF hFv pose k2
    have hm : Moves d d' frame := incorporateFrame_moves ho.record s.ops hd.cons hR hF hFv pose k2 e'
    refine ⟨d', x, e', ⟨⟨a1, ?_, ?_⟩, hm, a4⟩, R', a5⟩
    · intro q Q hQ
      by_cases hq : q = r
      · subst hq
        rw [a5] at hQ
        cases hQ
        refine ThreeViews.of_live (hd.three q R hR) ?_
        intro w hw
        have := lt_next_of_live hd.cons hR hw
        exact live_of_shape (a8 w (by omega)) hw
      · rw [a4 q hq] at hQ
        exact hd.three q Q hQ
    · intro q Q v V hQ hV
      refine hm.features hd ?_ hQ hV
      intro F' hF' _
      obtain ⟨F'', h1, h2⟩ := hm.live frame F hF
      rw [hF'] at h1
      cases h1
      omega

theorem localizeIncorporate_good [Mul P] [Inv P] {o : TopOracle P} (ho : o.Fair) {s : TopSettings}
    (hs : s.Sane) {d : Data P} (hd : d.Sound) {r frame : Nat} {R : Recon P} {F : Frame}
    (hR : d.recons.get r = some R) (hF : d.frames.get frame = some F) (hFv : F.view = none)
    {views : List Nat} (hne : views ≠ []) (hlive : ∀ v, v ∈ views → R.LiveView v) :
    ∃ d', localizeIncorporate o s d frame r views = some d' ∧
      Places d d' frame (fun q => q = r) := by
  obtain ⟨d1, x, e, hp, R1, hR1⟩ := incorporateTop_good ho hs hd hR hF hFv hne hlive
  unfold localizeIncorporate
  rw [e]
  cases x with
  | none => exact ⟨d1, rfl, hp⟩
  | some v =>
    obtain ⟨d2, e2, ht⟩ := optimizeTop_good ho s hp.sound hR1
    exact ⟨d2, e2, hp.trans (ht.places frame rfl)⟩

/-! ## Merging -/

theorem mergeTop_good {o : TopOracle P} (ho : o.Fair) {s : TopSettings} (hs : s.Sane)
    {d : Data P} (hd : d.Sound) {src sv dst : Nat} (hsd : src ≠ dst) {Sr D : Recon P} {V : View P}
    (hS : d.recons.get src = some Sr) (hV : Sr.views.get sv = some V)
    (hD : d.recons.get dst = some D)
    {views : List Nat} (hne : views ≠ []) (hlive : ∀ v, v ∈ views → D.LiveView v) (f : Nat) :
    ∃ d' b, mergeTop o s d src sv dst views = some (d', b) ∧
      Places d d' f (fun q => q = src ∨ q = dst) ∧ ∃ D', d'.recons.get dst = some D' := by
  obtain ⟨F, hF, hFv, hlen⟩ := hd.cons.viewFrame src Sr sv V hS hV
  obtain ⟨x, e, hx⟩ := registerTop_good ho hs hd hD hF hne hlive
  unfold mergeTop
  rw [hS]
  simp only [Option.bind_some, hV, e]
  match x with
  | none => exact ⟨d, false, rfl, Places.refl hd _ _, D, hD⟩
  | some (pose, ms) =>
    obtain ⟨k1, k2, k3, _⟩ := hx pose ms rfl
    rw [← hlen] at k2 k3
    obtain ⟨d', D', b, e', a1, a2, a3, a4, a5, a6, _, a8, a9⟩ :=
      Data.tryMerge_spec o.record ho.record o.merge ho.merge s.ops (o.tr V.pose pose) hsd hd.cons
        hS hV hD pose k1 k3 k2
    simp only
    refine ⟨d', b, e', ?_, D', a2⟩
    have old : ∀ w W', w < D.views.next → D'.views.get w = some W' →
        ∃ W, D.views.get w = some W ∧ W.frame = W'.frame := by
      intro w W' hw hW'
      have := a6 w hw
      rw [hW'] at this
      cases hW : D.views.get w with
      | none => rw [hW] at this; cases this
      | some W =>
        rw [hW] at this
        simp only [Option.map_some, Option.some.injEq, Prod.mk.injEq] at this
        exact ⟨W, rfl, this.1.symm⟩
    have hm : ∀ f, Moves d d' f := by
      intro f
      refine ⟨a1, live_of_grows hd.cons (Data.grows_tryMerge e'), ?_⟩
      intro q Q w W' hQ hW'
      right
      by_cases hq : q = dst
      · subst hq
        rw [a2] at hQ
        cases hQ
        have hlt := (a1.recons q D' a2).viewsWF.fresh w W' hW'
        by_cases h1 : w < D.views.next
        · obtain ⟨W, hW, e⟩ := old w W' h1 hW'
          exact ⟨q, D, w, W, hD, hW, e⟩
        · cases b with
          | false =>
            obtain ⟨_, hnone, hnext, _⟩ := a8 rfl
            have : w = D.views.next := by omega
            rw [this, hnone] at hW'
            cases hW'
          | true =>
            obtain ⟨_, ⟨lms, hl, _⟩, hnext, m', _, _, hmv⟩ := a9 rfl
            by_cases h2 : w = D.views.next
            · rw [h2, hl] at hW'
              cases hW'
              exact ⟨src, Sr, sv, V, hS, hV, rfl⟩
            · have hi : w - D.views.next - 1 < (Sr.views.erase sv).keys.length := by omega
              have hmem : (Sr.views.erase sv).keys[w - D.views.next - 1] ∈ (Sr.views.erase sv).keys :=
                List.getElem_mem hi
              obtain ⟨W, hW⟩ := (SlotMap.mem_keys_iff _ _).mp hmem
              rw [SlotMap.get_erase] at hW
              split at hW
              · cases hW
              · have hw : D.views.next + 1 + (w - D.views.next - 1) = w := by omega
                rcases hmv _ _ W (List.getElem?_eq_getElem hi) hW with h | ⟨h, _⟩
                · rw [hw] at h
                  obtain ⟨W'', h1, h2, _⟩ := h.view
                  rw [hW'] at h1
                  cases h1
                  exact ⟨src, Sr, _, W, hS, hW, h2.symm⟩
                · rw [hw, hW'] at h
                  cases h
      · by_cases hq' : q = src
        · subst hq'
          cases b with
          | false =>
            rw [(a8 rfl).1] at hQ
            cases hQ
            exact ⟨q, Sr, w, W', hS, hW', rfl⟩
          | true =>
            rw [(a9 rfl).1] at hQ
            cases hQ
        · rw [a5 q hq hq'] at hQ
          exact ⟨q, Q, w, W', hQ, hW', rfl⟩
    refine ⟨hd.of_moves hm ?_, hm f, fun q hq => a5 q (fun h => hq (Or.inr h)) (fun h => hq (Or.inl h))⟩
    intro q Q hQ
    by_cases hq : q = dst
    · subst hq
      rw [a2] at hQ
      cases hQ
      exact ThreeViews.of_live (hd.three q D hD)
        (fun w hw => live_of_shape (a6 w (lt_next_of_live hd.cons hD hw)) hw)
    · by_cases hq' : q = src
      · subst hq'
        cases b with
        | false =>
          rw [(a8 rfl).1] at hQ
          cases hQ
          exact hd.three q Sr hS
        | true =>
          rw [(a9 rfl).1] at hQ
          cases hQ
      · rw [a5 q hq hq'] at hQ
        exact hd.three q Q hQ

theorem localizeMerge_good [Mul P] [Inv P] {o : TopOracle P} (ho : o.Fair) {s : TopSettings}
    (hs : s.Sane) {d : Data P} (hd : d.Sound) {src sv dst : Nat} {Sr D : Recon P} {V : View P}
    (hS : d.recons.get src = some Sr) (hV : Sr.views.get sv = some V)
    (hD : d.recons.get dst = some D)
    {views : List Nat} (hne : views ≠ []) (hlive : ∀ v, v ∈ views → D.LiveView v) (f : Nat) :
    ∃ d', localizeMerge o s d src sv dst views = some d' ∧
      Places d d' f (fun q => q = src ∨ q = dst) := by
  unfold localizeMerge
  split
  · exact ⟨d, rfl, Places.refl hd _ _⟩
  rename_i hsd
  rw [hS]
  simp only
  split
  swap
  · exact ⟨d, rfl, Places.refl hd _ _⟩
  rw [hD]
  simp only
  split
  swap
  · exact ⟨d, rfl, Places.refl hd _ _⟩
  obtain ⟨d1, b, e, hp, D1, hD1⟩ := mergeTop_good ho hs hd hsd hS hV hD hne hlive f
  rw [e]
  cases b with
  | false => exact ⟨d1, rfl, hp⟩
  | true =>
    obtain ⟨d2, e2, ht⟩ := optimizeTop_good ho s hp.sound hD1
    exact ⟨d2, e2, hp.trans (ht.places f (Or.inr rfl))⟩

/-! ## Adding a frame -/

/-- Reconstruction `r` lives and has the views `vs`, at least one. -/
def Data.HasViews (d : Data P) (r : Nat) (vs : List Nat) : Prop :=
  vs ≠ [] ∧ ∃ R, d.recons.get r = some R ∧ ∀ v, v ∈ vs → R.LiveView v

theorem localizeLoop_good [Mul P] [Inv P] {ω : Nat → TopOracle P} (hω : ∀ i, (ω i).Fair)
    {s : TopSettings} (hs : s.Sane) (frame : Nat) (es : List (Nat × List Nat)) :
    ∀ {d : Data P} {F : Frame}, d.Sound → d.frames.get frame = some F → (es.map Prod.fst).Nodup →
    (∀ e, e ∈ es → d.HasViews e.1 e.2) →
    (∀ q v, F.view = some (q, v) → q ∉ es.map Prod.fst) →
    ∃ d', localizeLoop ω s frame es d = some d' ∧ d'.Sound ∧ Moves d d' frame := by
  induction es with
  | nil =>
    intro d F hd _ _ _ _
    exact ⟨d, rfl, hd, Moves.refl hd.cons _⟩
  | cons e es ih =>
    obtain ⟨dst, views⟩ := e
    intro d F hd hF hnd hviews haway
    obtain ⟨hne, D, hD, hlive⟩ := hviews (dst, views) (by simp)
    simp only [List.map_cons, List.nodup_cons] at hnd
    -- what remains to do after a step that works on `S`
    have next : ∀ (S : Nat → Prop) d1, Places d d1 frame S → (∀ q, S q → q ∉ es.map Prod.fst) →
        (∀ q v, F.view = some (q, v) → S q) →
        ∃ d', localizeLoop ω s frame es d1 = some d' ∧ d'.Sound ∧ Moves d d' frame := by
      intro S d1 hp hS hin
      obtain ⟨F1, hF1, _⟩ := hp.moves.live frame F hF
      obtain ⟨d', e', h1, h2⟩ := ih hp.sound hF1 hnd.2 (by
          intro e he
          obtain ⟨k1, R, k2, k3⟩ := hviews e (List.mem_cons_of_mem _ he)
          refine ⟨k1, R, ?_, k3⟩
          rw [hp.others e.1 (fun h => hS _ h (List.mem_map_of_mem he))]
          exact k2) (by
          intro q v hv
          exact hS q (hp.inside hd.cons hF hin hF1 hv))
      exact ⟨d', e', h1, hp.moves.trans h2⟩
    unfold localizeLoop
    rw [hF]
    cases hFv : F.view with
    | none =>
      obtain ⟨d1, e1, hp⟩ := localizeIncorporate_good (hω es.length) hs hd hD hF hFv hne hlive
      simp only [hFv, e1]
      exact next _ d1 hp (by rintro q rfl; exact hnd.1) (by rw [hFv]; intro q v h; cases h)
    | some rv =>
      obtain ⟨src, sv⟩ := rv
      obtain ⟨Sr, V, hS, hV, _⟩ := hd.cons.frameView frame F src sv hF hFv
      obtain ⟨d1, e1, hp⟩ := localizeMerge_good (hω es.length) hs hd hS hV hD hne hlive frame
      simp only [hFv, e1]
      have hsrc := haway src sv hFv
      simp only [List.map_cons, List.mem_cons, not_or] at hsrc
      refine next _ d1 hp ?_ ?_
      · rintro q (rfl | rfl)
        · exact hsrc.2
        · exact hnd.1
      · rw [hFv]
        rintro q v h
        cases h
        exact Or.inl rfl

theorem candidates_good {d : Data P} (hd : d.Consistent) (t : Tracking) {f : Nat}
    (hf : ∃ F, d.frames.get f = some F) {answers : List Nat} (hnd : answers.Nodup)
    (hlive : ∀ g, g ∈ answers → ∃ G, d.frames.get g = some G) :
    ∃ m free, findCandidates d t f answers = some (m, free) ∧ m.WF ∧ free.Nodup ∧
      (∀ r vs, m.get r = some vs → d.HasViews r vs) ∧ ∀ g, g ∈ free → g ≠ f ∧ d.IsFree g := by
  obtain ⟨m, free, e, a1, a2, a3, a4, a5⟩ := findCandidates_spec hd t hf hnd hlive
  refine ⟨m, free, e, a1, a2, ?_, ?_⟩
  · intro r vs hr
    have hne := (a3 r vs hr).1
    have key : ∀ v, v ∈ vs → ∃ R, d.recons.get r = some R ∧ R.LiveView v := by
      intro v hv
      obtain ⟨g, G, _, hG, hGv⟩ := (a4 r v).mp ⟨vs, hr, hv⟩
      obtain ⟨R, V, h1, h2, _⟩ := hd.frameView g G r v hG hGv
      exact ⟨R, h1, V, h2⟩
    obtain ⟨v0, hv0⟩ := List.exists_mem_of_ne_nil vs hne
    obtain ⟨R, hR, _⟩ := key v0 hv0
    refine ⟨hne, R, hR, ?_⟩
    intro v hv
    obtain ⟨R', hR', hl⟩ := key v hv
    rw [hR] at hR'
    cases hR'
    exact hl
  · intro g hg
    obtain ⟨hc, G, hG⟩ := (a5 g).mp hg
    refine ⟨?_, G, hG⟩
    rintro rfl
    rcases hc with ⟨h, _⟩ | ⟨_, _, _, ⟨h, _⟩, _⟩ <;> exact h rfl

theorem localizeStart_good {o : FrameOracle P S} (ho : o.Fair) {s : TopSettings} (hs : s.Sane)
    {d : Data P} (hd : d.Sound) {frame : Nat} (hF : ∃ F, d.frames.get frame = some F)
    {free : List Nat} (hnd : free.Nodup) (hfree : ∀ g, g ∈ free → g ≠ frame ∧ d.IsFree g) :
    ∃ d', localizeStart o s d frame free = some d' ∧ d'.Sound ∧
      ∀ g G, d.frames.get g = some G → ∃ G', d'.frames.get g = some G' := by
  obtain ⟨F, hF⟩ := hF
  unfold localizeStart
  rw [hF]
  cases hFv : F.view with
  | some rv =>
    simp only [hFv]
    exact ⟨d, rfl, hd, fun g G h => ⟨G, h⟩⟩
  | none =>
    simp only [hFv]
    obtain ⟨d', x, e, hc, hn, hst⟩ := C81_try_init (ho.start d) hs.scales hd.cons (ho.searches d)
      ⟨F, hF, hFv⟩ (fun g hg => (hfree g hg).2) hnd (fun h => (hfree _ h).1 rfl) o.idp
    rw [e]
    refine ⟨d', rfl, ?_⟩
    cases x with
    | none =>
      rw [hn rfl]
      exact ⟨hd, fun g G h => ⟨G, h⟩⟩
    | some r =>
      obtain ⟨st, pose₁, pose₂, ps₁, ps₂, hsub, h1, h2, hok, hs'⟩ := hst r rfl
      obtain ⟨R, hR, ⟨V0, hV0, f0, _⟩, ⟨V1, hV1, f1, _⟩, ⟨V2, hV2, f2, _⟩, hlt, _⟩ := hs'.recon
      obtain ⟨G1, hG1, _⟩ := (hfree st.first (hsub.subset (by simp))).2
      obtain ⟨G2, hG2, _⟩ := (hfree st.second (hsub.subset (by simp))).2
      obtain ⟨n0, n1, n2⟩ := C81_enough_features h1 h2 hok hF hG1 hG2
      obtain ⟨F0', hF0', _, l0⟩ := hc.viewFrame r R 0 V0 hR hV0
      obtain ⟨F1', hF1', _, l1⟩ := hc.viewFrame r R 1 V1 hR hV1
      obtain ⟨F2', hF2', _, l2⟩ := hc.viewFrame r R 2 V2 hR hV2
      rw [f0] at hF0'
      rw [f1] at hF1'
      rw [f2] at hF2'
      have e0 := hs'.features _ _ _ hF hF0'
      have e1 := hs'.features _ _ _ hG1 hF1'
      have e2 := hs'.features _ _ _ hG2 hF2'
      refine ⟨⟨hc, ?_, ?_⟩, ?_⟩
      · intro q Q hQ
        by_cases hq : q = r
        · subst hq
          rw [hR] at hQ
          cases hQ
          exact ⟨0, 1, 2, by decide, by decide, by decide, ⟨V0, hV0⟩, ⟨V1, hV1⟩, ⟨V2, hV2⟩⟩
        · rw [hs'.others q hq] at hQ
          exact hd.three q Q hQ
      · intro q Q v V hQ hV
        by_cases hq : q = r
        · subst hq
          rw [hR] at hQ
          cases hQ
          have hv := hlt v V hV
          have hv' : v = 0 ∨ v = 1 ∨ v = 2 := by omega
          rcases hv' with rfl | rfl | rfl
          · rw [hV0] at hV; cases hV; omega
          · rw [hV1] at hV; cases hV; omega
          · rw [hV2] at hV; cases hV; omega
        · rw [hs'.others q hq] at hQ
          exact hd.features q Q v V hQ hV
      · intro g G hG
        by_cases g0 : g = frame
        · exact ⟨_, g0 ▸ hF0'⟩
        · by_cases g1 : g = st.first
          · exact ⟨_, g1 ▸ hF1'⟩
          · by_cases g2 : g = st.second
            · exact ⟨_, g2 ▸ hF2'⟩
            · exact ⟨G, by rw [hs'.frames g g0 g1 g2]; exact hG⟩

theorem foundLoop_good [Mul P] [Inv P] {ω : Nat → TopOracle P} (hω : ∀ i, (ω i).Fair)
    {similar : Data P → Nat → List Nat} (hsn : ∀ d f, (similar d f).Nodup)
    (hsl : ∀ d f g, g ∈ similar d f → ∃ G, d.frames.get g = some G)
    {s : TopSettings} (hs : s.Sane) (r : Nat) (fs : List Nat) :
    ∀ {d : Data P}, d.Sound → (∃ R, d.recons.get r = some R) →
    (∀ f, f ∈ fs → ∃ F, d.frames.get f = some F) →
    ∃ d', foundLoop ω similar s r fs d = some d' ∧ d'.Sound ∧
      ∀ g G, d.frames.get g = some G → ∃ G', d'.frames.get g = some G' := by
  induction fs with
  | nil =>
    intro d hd _ _
    exact ⟨d, rfl, hd, fun g G h => ⟨G, h⟩⟩
  | cons f fs ih =>
    intro d hd hr hfs
    obtain ⟨F, hF⟩ := hfs f (by simp)
    unfold foundLoop
    rw [hF]
    simp only
    split
    · exact ih hd hr (fun g hg => hfs g (List.mem_cons_of_mem _ hg))
    rename_i hv
    have hFv : F.view = none := by simpa using hv
    obtain ⟨m, free, e, _, _, hm, _⟩ := candidates_good hd.cons s.tracking ⟨F, hF⟩ (hsn d f) (hsl d f)
    have hfound : ∃ d1, localizeFound (ω fs.length) similar s d r f = some d1 ∧ d1.Sound ∧
        ∀ g G, d.frames.get g = some G → ∃ G', d1.frames.get g = some G' := by
      unfold localizeFound
      rw [e]
      simp only
      cases hmr : m.get r with
      | none => exact ⟨d, rfl, hd, fun g G h => ⟨G, h⟩⟩
      | some vs =>
        obtain ⟨hne, R, hR, hlive⟩ := hm r vs hmr
        obtain ⟨d1, e1, hp⟩ := localizeIncorporate_good (hω fs.length) hs hd hR hF hFv hne hlive
        exact ⟨d1, e1, hp.sound, fun g G h => (hp.moves.live g G h).imp fun _ h => h.1⟩
    obtain ⟨d1, e1, hd1, hl1⟩ := hfound
    rw [e1]
    simp only
    split
    · rename_i hr1
      obtain ⟨d', e', h1, h2⟩ := ih hd1 (Option.isSome_iff_exists.mp hr1) (by
        intro g hg
        obtain ⟨G, hG⟩ := hfs g (List.mem_cons_of_mem _ hg)
        exact hl1 g G hG)
      refine ⟨d', e', h1, ?_⟩
      intro g G hG
      obtain ⟨G', hG'⟩ := hl1 g G hG
      exact h2 g G' hG'
    · exact ⟨d1, rfl, hd1, hl1⟩

theorem tryLocalize_good [Mul P] [Inv P] {o : FrameOracle P S} (ho : o.Fair) {s : TopSettings}
    (hs : s.Sane) {d : Data P} (hd : d.Sound) {frame : Nat} {F : Frame}
    (hF : d.frames.get frame = some F) (hFv : F.view = none) {m : FMap (List Nat)} (hm : m.WF)
    (hviews : ∀ r vs, m.get r = some vs → d.HasViews r vs) {free : List Nat} (hnd : free.Nodup)
    (hfree : ∀ g, g ∈ free → g ≠ frame ∧ d.IsFree g) :
    ∃ d', tryLocalize o s d frame m free = some d' ∧ d'.Sound ∧
      ∀ g G, d.frames.get g = some G → ∃ G', d'.frames.get g = some G' := by
  have hp := ho.sort m.entries
  obtain ⟨d1, e1, hd1, hm1⟩ := localizeLoop_good ho.first hs frame (o.sort m.entries) hd hF
    ((hp.map Prod.fst).nodup_iff.mpr hm)
    (by
      rintro ⟨r, vs⟩ he
      exact hviews r vs (FMap.get_of_mem hm (hp.mem_iff.mp he)))
    (by rw [hFv]; intro q v h; cases h)
  obtain ⟨F1, hF1, _⟩ := hm1.live frame F hF
  have hfree1 : ∀ g, g ∈ free → g ≠ frame ∧ d1.IsFree g := fun g hg =>
    ⟨(hfree g hg).1, hm1.free hd.cons (hfree g hg).1 (hfree g hg).2⟩
  obtain ⟨d2, e2, hd2, hl2⟩ := localizeStart_good ho hs hd1 ⟨F1, hF1⟩ hnd hfree1
  have hl : ∀ g G, d.frames.get g = some G → ∃ G', d2.frames.get g = some G' := by
    intro g G hG
    obtain ⟨G1, hG1, _⟩ := hm1.live g G hG
    exact hl2 g G1 hG1
  unfold tryLocalize
  simp only [e1, e2]
  unfold localizeRest
  obtain ⟨F2, hF2⟩ := hl frame F hF
  rw [hF2]
  cases hFv2 : F2.view with
  | none =>
    simp only [hFv2]
    exact ⟨d2, rfl, hd2, hl⟩
  | some rv =>
    obtain ⟨r, v⟩ := rv
    obtain ⟨R, V, hR, _⟩ := hd2.cons.frameView frame F2 r v hF2 hFv2
    simp only [hFv2]
    obtain ⟨d3, e3, hd3, hl3⟩ := foundLoop_good ho.second ho.similarOnce ho.similarLive hs r free
      hd2 ⟨R, hR⟩ (fun g hg => (hfree g hg).2.elim fun G h => hl g G h.1)
    refine ⟨d3, e3, hd3, ?_⟩
    intro g G hG
    obtain ⟨G2, hG2⟩ := hl g G hG
    exact hl3 g G2 hG2

theorem addFrameTop_good [Mul P] [Inv P] {o : FrameOracle P S} (ho : o.Fair) {s : TopSettings}
    (hs : s.Sane) {d : Data P} (hd : d.Sound) {feed : Nat} (hf : ∃ fs, d.feeds.get feed = some fs)
    (n : Nat) : ∃ d' f, addFrameTop o s d feed n = some (d', f) ∧ d'.Sound ∧
      d.frames.get f = none ∧ ∀ g, (g = f ∨ ∃ G, d.frames.get g = some G) →
        ∃ G', d'.frames.get g = some G' := by
  obtain ⟨fs, hfs⟩ := hf
  obtain ⟨d1, e1, hc1, hr1, hF1, hfr1⟩ := Data.addFrame_spec (hd.cons.off (fun _ => False)) hfs n
  have hfresh : d.frames.get d.frames.next = none := by
    cases h : d.frames.get d.frames.next with
    | none => rfl
    | some F =>
      have := hd.cons.framesWF.fresh _ _ h
      omega
  have hd1 : d1.Sound := by
    refine ⟨hc1.on, ?_, ?_⟩
    · rw [hr1]; exact hd.three
    · rw [hr1]; exact hd.features
  obtain ⟨m, free, e2, hm, hnd, hviews, hfree⟩ := candidates_good hd1.cons s.tracking ⟨_, hF1⟩
    (ho.similarOnce d1 d.frames.next) (ho.similarLive d1 d.frames.next)
  obtain ⟨d2, e3, hd2, hl⟩ := tryLocalize_good ho hs hd1 hF1 rfl hm hviews hnd hfree
  refine ⟨d2, d.frames.next, ?_, hd2, hfresh, ?_⟩
  · unfold addFrameTop
    simp only [e1, e2, e3]
  · rintro g (rfl | ⟨G, hG⟩)
    · exact hl _ _ hF1
    · refine hl g G ?_
      rw [hfr1 g]
      · exact hG
      · rintro rfl
        rw [hfresh] at hG
        cases hG

/-! ## The other calls -/

/-- One reconstruction keeps its views. -/
theorem tidies_of_shape {d d' : Data P} (hd : d.Sound) {r : Nat} {R R' : Recon P}
    (hR : d.recons.get r = some R) (hc : d'.Consistent) (hg : d.GrowsK d')
    (ho : ∀ q, q ≠ r → d'.recons.get q = d.recons.get q) (hR' : d'.recons.get r = some R')
    (hv : ∀ w, (R'.views.get w).map (fun W => W.frame) = (R.views.get w).map (fun W => W.frame)) :
    Tidies d d' r := by
  refine tidies_of hd hR hc hg ho ?_
  intro Q hQ
  rw [hR'] at hQ
  cases hQ
  refine ⟨ThreeViews.of_live (hd.three r R hR) (fun w hw => live_of_shape (hv w) hw), ?_⟩
  intro w W' hW'
  have := hv w
  rw [hW'] at this
  cases hW : R.views.get w with
  | none => rw [hW] at this; cases this
  | some W =>
    rw [hW] at this
    exact ⟨W, rfl, Option.some.inj this⟩

theorem frame_of_shape {R R' : Recon P}
    (hv : ∀ w, (R'.views.get w).map (fun V => (V.frame, V.pose, V.landmarks.length)) =
      (R.views.get w).map (fun V => (V.frame, V.pose, V.landmarks.length))) (w : Nat) :
    (R'.views.get w).map (fun W => W.frame) = (R.views.get w).map (fun W => W.frame) := by
  have := congrArg (Option.map Prod.fst) (hv w)
  simpa [Option.map_map, Function.comp_def] using this

theorem incorporateReconstruction_good {ω : Nat → Oracle P} (hω : ∀ i, (ω i).Fair) (s : Settings)
    (tr : P → P) {d : Data P} (hd : d.Sound) {src dst : Nat} (hsd : src ≠ dst) {Sr D : Recon P}
    (hS : d.recons.get src = some Sr) (hD : d.recons.get dst = some D) {m : FMap Nat}
    (hm : Data.GoodMap D m) :
    ∃ d', d.incorporateReconstruction ω s tr src dst m = some d' ∧ d'.Sound := by
  obtain ⟨d', D', m', e, a1, a2, a3, a4, a5, _, _, _, _, a6, _, a7, a8, _⟩ :=
    Data.incorporate_spec ω hω s tr hsd (hd.cons.off _) (Data.srcOk_of_consistent hd.cons hS) hD hm
  refine ⟨d', e, ?_⟩
  have hm : ∀ f, Moves d d' f := by
    intro f
    refine ⟨a1, live_of_grows hd.cons (Data.grows_incorporateReconstruction e), ?_⟩
    intro q Q w W' hQ hW'
    right
    by_cases hq : q = dst
    · subst hq
      rw [a3] at hQ
      cases hQ
      have hlt := (a1.recons q D' a3).viewsWF.fresh w W' hW'
      by_cases h1 : w < D.views.next
      · rw [a7 w h1] at hW'
        exact ⟨q, D, w, W', hD, hW', rfl⟩
      · have hi : w - D.views.next < Sr.views.keys.length := by omega
        have hmem : Sr.views.keys[w - D.views.next] ∈ Sr.views.keys := List.getElem_mem hi
        obtain ⟨W, hW⟩ := (SlotMap.mem_keys_iff _ _).mp hmem
        have hw : D.views.next + (w - D.views.next) = w := by omega
        rcases a8 _ _ W (List.getElem?_eq_getElem hi) hW with h | ⟨h, _⟩
        · rw [hw] at h
          obtain ⟨W'', h1, h2, _⟩ := h.view
          rw [hW'] at h1
          cases h1
          exact ⟨src, Sr, _, W, hS, hW, h2.symm⟩
        · rw [hw, hW'] at h
          cases h
    · by_cases hq' : q = src
      · subst hq'
        rw [a2] at hQ
        cases hQ
      · rw [a5 q hq hq'] at hQ
        exact ⟨q, Q, w, W', hQ, hW', rfl⟩
  refine hd.of_moves hm ?_
  intro q Q hQ
  by_cases hq : q = dst
  · subst hq
    rw [a3] at hQ
    cases hQ
    refine ThreeViews.of_live (hd.three q D hD) ?_
    rintro w ⟨W, hW⟩
    exact ⟨W, by rw [a7 w (lt_next_of_live hd.cons hD ⟨W, hW⟩)]; exact hW⟩
  · by_cases hq' : q = src
    · subst hq'
      rw [a2] at hQ
      cases hQ
    · rw [a5 q hq hq'] at hQ
      exact hd.three q Q hQ

theorem call_good [Mul P] [Inv P] {s : TopSettings} (hs : s.Sane) {d : Data P} (hd : d.Sound)
    {c : Call P S} (hc : c.Ok d) : ∃ d', c.run s d = some d' ∧ d'.Sound := by
  cases c with
  | addFeed =>
    refine ⟨_, rfl, (Data.addFeed_consistent (hd.cons.off _)).on, hd.three, hd.features⟩
  | addFrame o feed n =>
    obtain ⟨ho, hf⟩ := hc
    obtain ⟨d', f, e, h, _⟩ := addFrameTop_good ho hs hd hf n
    exact ⟨d', by simp only [Call.run, e, Option.map_some], h⟩
  | incorporateReconstruction ω tr src dst m =>
    obtain ⟨hω, hne, S, D, hS, hD, hinj, hlive⟩ := hc
    exact incorporateReconstruction_good hω s.ops tr hd hne hS hD ⟨hinj, hlive⟩
  | normalize f g r =>
    obtain ⟨R, hR⟩ := hc
    have h3 := ThreeViews.size (hd.three r R hR)
    have hne : R.views.size ≠ 0 := by omega
    have e : step d (.normalize f g r) =
        some { d with recons := d.recons.modify r (fun _ => R.mapPoses f g) } :=
      onRecon_some hR (R' := R.mapPoses f g) (by simp [hne])
    refine ⟨_, e, ?_⟩
    have hv : ∀ w, ((R.mapPoses f g).views.get w).map (fun W => W.frame) =
        (R.views.get w).map (fun W => W.frame) := by
      intro w
      rw [Recon.mapPoses_views]
      cases R.views.get w <;> rfl
    have hcons := (Data.replaceRecon (hd.cons.off _) hR
      (Recon.mapPoses_consistent f g (hd.cons.recons r R hR)) (by
        intro w
        rw [Recon.mapPoses_views]
        cases R.views.get w <;> rfl)).on
    have hg := fun q => Data.get_replace (R' := R.mapPoses f g) hR q
    exact (tidies_of_shape hd hR hcons (step_grows e) (fun q hq => (hg q).trans (if_neg hq))
      ((hg r).trans (if_pos rfl)) hv).sound
  | optimize ω ω' r =>
    obtain ⟨hω, R, hR⟩ := hc
    obtain ⟨d', b, e, t⟩ := optimize_good ω ω' hω s.ops hd hR
    exact ⟨d', by simp only [Call.run, e, Option.map_some], t.sound⟩
  | applyConstraints ω r =>
    obtain ⟨hω, R, hR⟩ := hc
    obtain ⟨d', b, e, t, _⟩ := applyConstraints_good ω hω s.ops hd hR
    exact ⟨d', by simp only [Call.run, e, Option.map_some], t.sound⟩
  | regenerate ω ω' ω'' r =>
    obtain ⟨hω, hω', R, hR⟩ := hc
    obtain ⟨d1, R1, e1, hc1, hR1, _, _, _, ho, hv, _⟩ := Data.regenerate_ok ω hω s.ops hd.cons hR
    have t1 := tidies_of_shape hd hR hc1 (Data.grows_regenerate e1) ho hR1 (by intro w; rw [hv])
    obtain ⟨d2, b, e2, t2⟩ := optimize_good ω' ω'' hω' s.ops t1.sound hR1
    exact ⟨d2, by simp only [Call.run, e1, e2, Option.map_some], t2.sound⟩
  | filterObservations ω r =>
    obtain ⟨R, hR⟩ := hc
    obtain ⟨d', b, e, t, _⟩ := filterObservations_good ω s.ops hd hR
    exact ⟨d', by simp only [Call.run, e, Option.map_some], t.sound⟩
  | filterLandmarks ω r =>
    obtain ⟨R, hR⟩ := hc
    obtain ⟨d', R', e, hc', _, _, _, ho, hR', href⟩ := Data.filterLandmarks_ok ω hd.cons hR
    exact ⟨d', e, (tidies_of_shape hd hR hc' (step_grows (op := .filterLandmarks ω r) e) ho hR'
      (frame_of_shape href.views)).sound⟩
  | mergeDedup loss r a b =>
    obtain ⟨R, hR, ha, hb⟩ := hc
    obtain ⟨d', x, R', e, hc', hrun, _, _, _, ho, hR', _⟩ := Data.mergeDedup_ok loss hd.cons hR ha hb
    have hv : ∀ w, (R'.views.get w).map (fun V => (V.frame, V.pose, V.landmarks.length)) =
        (R.views.get w).map (fun V => (V.frame, V.pose, V.landmarks.length)) := by
      obtain ⟨A, hA⟩ := ha
      obtain ⟨B, hB⟩ := hb
      by_cases hab : a = b
      · subst hab
        obtain ⟨R'', h1, h2⟩ := Recon.mergeDedup_self loss (hd.cons.recons r R hR) hA
        rw [hrun] at h1
        cases h1
        exact h2.views
      · obtain ⟨R'', x', h1, _, _, _, _, h6, _⟩ :=
          Recon.mergeDedup_spec loss (hd.cons.recons r R hR) hab hA hB
        rw [hrun] at h1
        cases h1
        exact h6
    exact ⟨d', by simp only [Call.run, e, Option.map_some], (tidies_of_shape hd hR hc'
      (Data.grows_mergeDedup e) ho hR' (frame_of_shape hv)).sound⟩

theorem history_sound [Mul P] [Inv P] {s : TopSettings} (hs : s.Sane) {d : Data P}
    (h : History S s d) : d.Sound := by
  induction h with
  | new =>
    refine ⟨Data.empty_consistent, ?_, ?_⟩
    · intro r R h; simp [Data.empty, SlotMap.empty, SlotMap.get, FMap.empty, FMap.get] at h
    · intro r R v V h; simp [Data.empty, SlotMap.empty, SlotMap.get, FMap.empty, FMap.get] at h
  | call _ hok hrun ih =>
    obtain ⟨d', e, hd'⟩ := call_good hs ih hok
    rw [hrun] at e
    cases e
    exact hd'

/-! ## Keys -/

theorem grows_applyConstraints [Mul P] [Inv P] {ω : Nat → Oracle P} {s : Settings} {d d' : Data P}
    {r : Nat} {b : Bool} (h : d.applyConstraints ω s r = some (d', b)) : d.GrowsK d' := by
  unfold Data.applyConstraints at h
  split at h
  · cases h
  · exact Data.grows_applyLoop _ _ _ _ h

theorem grows_incorporateTop {o : TopOracle P} {s : TopSettings} {d d' : Data P} {r frame : Nat}
    {views : List Nat} {x : Option Nat} (h : incorporateTop o s d r frame views = some (d', x)) :
    d.GrowsK d' := by
  unfold incorporateTop at h
  split at h
  · cases h
  · cases h; exact Data.GrowsK.refl _
  · exact Data.grows_incorporateFrame h

theorem grows_optimizeTop [Mul P] [Inv P] {o : TopOracle P} {s : TopSettings} {d d' : Data P}
    {r : Nat} (h : optimizeTop o s d r = some d') : d.GrowsK d' := by
  obtain ⟨_, h⟩ := map_fst h
  exact Data.grows_optimizeLoop _ _ _ _ _ h

theorem grows_localizeIncorporate [Mul P] [Inv P] {o : TopOracle P} {s : TopSettings}
    {d d' : Data P} {r frame : Nat} {views : List Nat}
    (h : localizeIncorporate o s d frame r views = some d') : d.GrowsK d' := by
  unfold localizeIncorporate at h
  split at h
  · cases h
  · rename_i h1
    exact (grows_incorporateTop h1).trans (grows_optimizeTop h)
  · rename_i h1
    cases h
    exact grows_incorporateTop h1

theorem grows_localizeMerge [Mul P] [Inv P] {o : TopOracle P} {s : TopSettings}
    {d d' : Data P} {src sv dst : Nat} {views : List Nat}
    (h : localizeMerge o s d src sv dst views = some d') : d.GrowsK d' := by
  have hm : ∀ {d1 b}, mergeTop o s d src sv dst views = some (d1, b) → d.GrowsK d1 := by
    intro d1 b h
    unfold mergeTop at h
    split at h
    · cases h
    · split at h
      · cases h
      · cases h; exact Data.GrowsK.refl _
      · exact Data.grows_tryMerge h
  unfold localizeMerge at h
  split at h
  · cases h; exact Data.GrowsK.refl _
  split at h
  · cases h
  split at h
  · split at h
    · cases h
    split at h
    · split at h
      · cases h
      · rename_i h1
        exact (hm h1).trans (grows_optimizeTop h)
      · rename_i h1
        cases h
        exact hm h1
    · cases h; exact Data.GrowsK.refl _
  · cases h; exact Data.GrowsK.refl _

theorem grows_localizeLoop [Mul P] [Inv P] (ω : Nat → TopOracle P) (s : TopSettings) (frame : Nat)
    (es : List (Nat × List Nat)) : ∀ {d d' : Data P}, localizeLoop ω s frame es d = some d' →
    d.GrowsK d' := by
  induction es with
  | nil => intro d d' h; cases h; exact Data.GrowsK.refl _
  | cons e es ih =>
    intro d d' h
    unfold localizeLoop at h
    split at h
    · cases h
    split at h
    · split at h
      · cases h
      · rename_i h1
        exact (grows_localizeMerge h1).trans (ih h)
    · split at h
      · cases h
      · rename_i h1
        exact (grows_localizeIncorporate h1).trans (ih h)

theorem grows_foundLoop [Mul P] [Inv P] (ω : Nat → TopOracle P) (similar : Data P → Nat → List Nat)
    (s : TopSettings) (r : Nat) (fs : List Nat) : ∀ {d d' : Data P},
    foundLoop ω similar s r fs d = some d' → d.GrowsK d' := by
  induction fs with
  | nil => intro d d' h; cases h; exact Data.GrowsK.refl _
  | cons f fs ih =>
    intro d d' h
    unfold foundLoop at h
    split at h
    · cases h
    split at h
    · exact ih h
    split at h
    · cases h
    · rename_i d1 h1
      have hg : d.GrowsK d1 := by
        unfold localizeFound at h1
        split at h1
        · cases h1
        · split at h1
          · cases h1; exact Data.GrowsK.refl _
          · exact grows_localizeIncorporate h1
      split at h
      · exact hg.trans (ih h)
      · cases h; exact hg

omit [LinearOrder S] in
theorem grows_addFrameTop [Mul P] [Inv P] {o : FrameOracle P S} {s : TopSettings} {d d' : Data P}
    {feed n f : Nat} (h : addFrameTop o s d feed n = some (d', f)) : d.GrowsK d' := by
  unfold addFrameTop at h
  split at h
  · cases h
  rename_i h1
  simp only at h
  split at h
  · cases h
  split at h
  · cases h
  rename_i h2
  cases h
  refine (Data.grows_addFrame h1).trans ?_
  unfold tryLocalize at h2
  split at h2
  · cases h2
  rename_i dl h3
  refine (grows_localizeLoop _ _ _ _ h3).trans ?_
  split at h2
  · cases h2
  rename_i d2 h4
  have hg : dl.GrowsK d2 := by
    unfold localizeStart at h4
    split at h4
    · cases h4
    split at h4
    · cases h4; exact Data.GrowsK.refl _
    · obtain ⟨_, h4⟩ := map_fst h4
      unfold tryInit at h4
      split at h4
      · cases h4
      · cases h4; exact Data.GrowsK.refl _
      · split at h4
        · cases h4
        · rename_i h5
          cases h4
          exact Data.grows_addReconstruction h5
  refine hg.trans ?_
  unfold localizeRest at h2
  split at h2
  · cases h2
  split at h2
  · cases h2; exact Data.GrowsK.refl _
  · exact grows_foundLoop _ _ _ _ _ h2

omit [LinearOrder S] in
theorem call_grows [Mul P] [Inv P] {s : TopSettings} {d d' : Data P} {c : Call P S}
    (h : c.run s d = some d') : d.GrowsK d' := by
  cases c <;> simp only [Call.run] at h
  case addFeed => exact step_grows (op := .addFeed) h
  case addFrame => obtain ⟨_, h⟩ := map_fst h; exact grows_addFrameTop h
  case incorporateReconstruction => exact Data.grows_incorporateReconstruction h
  case normalize => exact step_grows h
  case optimize => obtain ⟨_, h⟩ := map_fst h; exact Data.grows_optimizeLoop _ _ _ _ _ h
  case applyConstraints => obtain ⟨_, h⟩ := map_fst h; exact grows_applyConstraints h
  case regenerate =>
    split at h
    · cases h
    · rename_i h1
      obtain ⟨_, h⟩ := map_fst h
      exact (Data.grows_regenerate h1).trans (Data.grows_optimizeLoop _ _ _ _ _ h)
  case filterObservations => obtain ⟨_, h⟩ := map_fst h; exact Data.grows_filterObservations h
  case filterLandmarks ω r => exact step_grows (op := .filterLandmarks ω r) h
  case mergeDedup => obtain ⟨_, h⟩ := map_fst h; exact Data.grows_mergeDedup h

end Verif.Sfm
