import Verif.Spec.SfmPipeline
import Verif.Lemmas.SfmTop
import Verif.Lemmas.SfmExactSteps
import Verif.Props.SfmPose
import Verif.Props.SfmStartGeo

/-!
# Lemmas on calls with exact data
-/

namespace Verif.Sfm

open Verif.Geo

variable {C : Type} {W : World C} {sc : Scene} {g : Iso ℝ} {k : ℝ} {R : Recon (Iso ℝ)}

/-! ## Points and poses -/

theorem looks_bearing {pose : Iso ℝ} {a b x : V3 ℝ} (ha : Looks pose a x) (hb : Looks pose b x) : a = b := by
  obtain ⟨h1, d, hd, e⟩ := ha
  obtain ⟨h2, c, hc, e'⟩ := hb
  rw [e] at e'
  have hn : d * d * a.normSq = c * c * b.normSq := by rw [← V3.normSq_smul, ← V3.normSq_smul, e']
  rw [h1, h2] at hn
  have hdc : d = c := by nlinarith
  subst hdc
  have h3 := congrArg (V3.smul d⁻¹) e'
  have hs : ∀ v : V3 ℝ, V3.smul d⁻¹ (V3.smul d v) = v := by
    intro v
    ext <;> simp only [lin] <;> field_simp
  rwa [hs, hs] at h3

theorem forall₂_left {α β : Type} {r : α → β → Prop} {l : List α} {m : List β} (h : List.Forall₂ r l m) :
    ∀ a ∈ l, ∃ b ∈ m, r a b := by
  induction h with
  | nil => simp
  | cons hr _ ih =>
    intro a ha
    rcases List.mem_cons.mp ha with rfl | ha
    · exact ⟨_, by simp, hr⟩
    · obtain ⟨b, hb, h⟩ := ih a ha
      exact ⟨b, List.mem_cons_of_mem _ hb, h⟩

theorem forall₂_right {α β : Type} {r : α → β → Prop} {l : List α} {m : List β} (h : List.Forall₂ r l m) :
    ∀ b ∈ m, ∃ a ∈ l, r a b := by
  induction h with
  | nil => simp
  | cons hr _ ih =>
    intro b hb
    rcases List.mem_cons.mp hb with rfl | hb
    · exact ⟨_, by simp, hr⟩
    · obtain ⟨a, ha, h⟩ := ih b hb
      exact ⟨a, List.mem_cons_of_mem _ ha, h⟩

theorem observed_point (hR : R.Consistent) {ls : List Nat} {x : V3 ℝ} (hx : ∀ l ∈ ls, R.Depicts sc l x)
    {obs : List (Nat × Nat)} (ho : ObservedBy R ls obs) {o : Nat × Nat} (h : o ∈ obs) {V : View (Iso ℝ)}
    (hV : R.views.get o.1 = some V) : sc.point V.frame o.2 = x := by
  obtain ⟨Ls, hl, rfl⟩ := ho
  obtain ⟨L, hL, hoL⟩ := List.mem_flatMap.mp h
  obtain ⟨l, hl', hget⟩ := forall₂_right hl L hL
  exact hx l hl' _ _ V ⟨L, hget, FMap.get_of_mem (hR.obsWF l L hget) hoL⟩ hV

/-- Robust observations of one point come from at least two directions. -/
theorem robust_across (hp : sc.Pictured W) (hg : g.Rigid) (hR : R.Consistent) (ht : R.TrueIn sc g k)
    {ls : List Nat} {x : V3 ℝ} (hx : ∀ l ∈ ls, R.Depicts sc l x) {obs : List (Nat × Nat)} {pbs : List (Iso ℝ × V3 ℝ)}
    (hobs : ObservedBy R ls obs) (hrob : Robust W R obs) (hs : SeenAs W R obs pbs) :
    ∃ o ∈ pbs, ∃ o' ∈ pbs, (o.1.inv.rot.mulVec o.2).cross (o'.1.inv.rot.mulVec o'.2) ≠ V3.zero := by
  obtain ⟨_, o, ho, o', ho', v, v', ⟨V, hV, hb⟩, ⟨V', hV', hb'⟩, hang⟩ := hrob
  have hrot : g.rot.transpose.IsRot := M3.IsRot.transpose hg
  obtain ⟨q, hq, U, hU, e, hbU⟩ := forall₂_left hs o ho
  obtain ⟨q', hq', U', hU', e', hbU'⟩ := forall₂_left hs o' ho'
  rw [hV] at hU; cases hU
  rw [hV'] at hU'; cases hU'
  refine ⟨q, hq, q', hq', ?_⟩
  rw [← e, ← e', ht.poses _ _ hV, ht.poses _ _ hV', viewed_ray, viewed_ray, hrot.cross_mulVec]
  apply mulVec_ne hrot
  have hx1 := observed_point hR hx hobs ho hV
  have hx2 := observed_point hR hx hobs ho' hV'
  by_cases hf : V.frame = V'.frame
  · exfalso
    have l1 := hp.seen.looks _ _ _ hb
    have l2 := hp.seen.looks _ _ _ hb'
    rw [hx1] at l1
    rw [hx2, ← hf] at l2
    have heq := looks_bearing l1 l2
    have hpose : V'.pose = V.pose := by rw [ht.poses _ _ hV, ht.poses _ _ hV', hf]
    have hr : V.pose.Rigid := ht.rigid hp.seen.rigid hg _ _ hV
    rw [hpose] at heq
    have hdot : v.dot v' = 1 := by
      rw [← M3.IsRot.dot_mulVec hr, ← heq]
      exact l1.1
    have := hp.cosine
    linarith
  · exact hp.parallax _ _ hf _ _ _ _ (hx1.trans hx2.symm) hbU hbU'

/-- The point of a robust landmark, or of two, of a true reconstruction is the right one. -/
theorem located_point (hp : sc.Pictured W) (hg : g.Rigid) (hk : 0 < k) (hR : R.Consistent) (ht : R.TrueIn sc g k)
    {ls : List Nat} {x : V3 ℝ} (hx : ∀ l ∈ ls, R.Depicts sc l x) {p : V4 ℝ} (h : LocatedAt W R ls p) :
    fromPoint (V3.smul k (g.inv.point x)) = some p := by
  obtain ⟨obs, pbs, hobs, hrob, hs, htri⟩ := h
  refine hp.sound _ _ _ ?_ ?_ (robust_across hp hg hR ht hx hobs hrob hs) htri
  · intro q hq
    obtain ⟨a, _, U, hU, e, _⟩ := forall₂_right hs q hq
    rw [← e]
    exact ht.rigid hp.seen.rigid hg _ _ hU
  · intro q hq
    obtain ⟨a, ha, U, hU, e, hbU⟩ := forall₂_right hs q hq
    rw [← e, ht.poses _ _ hU, ← observed_point hR hx hobs ha hU]
    exact looks_viewed hk hg (hp.seen.looks _ _ _ hbU)

theorem fromPoint_ne {x : V3 ℝ} {p : V4 ℝ} (hp : fromPoint x = some p) : x ≠ V3.zero := by
  rintro rfl
  unfold fromPoint fromHomogeneous at hp
  have h0 : ¬ (1 : ℝ) < 0 := by norm_num
  simp [V4.xyz, V3.zero, V3.norm, V3.normSq, h0] at hp

/-- A camera that looks at a point fits it. -/
theorem fits_of_looks {pose : Iso ℝ} {b x : V3 ℝ} {p : V4 ℝ} (h : Looks pose b x) (hp : fromPoint x = some p) :
    Geo.Fits pose (b, p) := by
  have hx := fromPoint_ne hp
  obtain ⟨p', h1, _, h3⟩ := fromPoint_some hx
  rw [hp] at h1
  cases h1
  obtain ⟨hb, d, hd, e⟩ := h
  obtain ⟨q, h4, h5⟩ := sight_term hb hd.ne' e
  unfold Geo.Fits
  rw [transform_position (normal_of_some hp) h3, h4]
  rw [if_neg (not_lt.mpr hd.le)] at h5
  simp only [Option.map_some, Option.some.injEq]
  exact (unit_dot_one hb (normal_of_some h4).1 h5).symm

/-! ## Registration -/

theorem pose_data (hp : sc.Pictured W) (hg : g.Rigid) (hR : R.Consistent) (ht : R.TrueIn sc g k) : PoseData W R :=
  ⟨hR, fun _ V f _ _ => hp.every V.frame f, ht.rigid hp.seen.rigid hg, fun _ _ _ h => (hp.seen.looks _ _ _ h).1, hp.cosine⟩

/-- The right pose fits every located match. -/
theorem true_fits (hp : sc.Pictured W) (hg : g.Rigid) (hk : 0 < k) (hR : R.Consistent) (ht : R.TrueIn sc g k)
    {frame : Nat} {m : List Nat × Nat} (hm : ∀ l ∈ m.1, R.Depicts sc l (sc.point frame m.2)) {w : WorldMatch}
    (h : Located W R frame m w) : Geo.Fits (sc.viewed g k frame) w :=
  fits_of_looks (looks_viewed hk hg (hp.seen.looks _ _ _ h.1)) (located_point hp hg hk hR ht hm h.2)

/-- The pose found is the right one. -/
theorem found_pose (hp : sc.Pictured W) (hg : g.Rigid) (hk : 0 < k) (hR : R.Consistent) (ht : R.TrueIn sc g k)
    {frame : Nat} {ms : List (List Nat × Nat)} (hm : ∀ m ∈ ms, ∀ l ∈ m.1, R.Depicts sc l (sc.point frame m.2))
    {lim : Limits} {s : PoseSettings} {consensus : List WorldMatch → Option (Iso ℝ × List Nat)}
    (hc : ExactConsensus consensus) {pose : Iso ℝ} (h : FoundFrom W lim s consensus R frame ms pose) :
    pose = sc.viewed g k frame := by
  obtain ⟨ws, is, poses, data, ⟨sub, hsub, hloc, _⟩, _, hcon, hdata, hstep, hnext, _, rfl⟩ := h
  have points : ∀ {Q : List Nat × Nat → Prop} {l : List WorldMatch}, PointsOf W R frame Q ms l →
      ∀ w ∈ l, Geo.Fits (sc.viewed g k frame) w := by
    rintro Q l ⟨sub, hsub, hloc, _⟩ w hw
    obtain ⟨m, hm', hl⟩ := forall₂_right hloc w hw
    exact true_fits hp hg hk hR ht (hm m (hsub.subset hm')) hl
  have hws : ∀ w ∈ ws, Geo.Fits (sc.viewed g k frame) w := by
    intro w hw
    obtain ⟨m, hm', hl⟩ := forall₂_right hloc w hw
    exact true_fits hp hg hk hR ht (hm m (hsub.subset hm')) hl
  have h0 : poses 0 = sc.viewed g k frame :=
    (hc.only _ _ _ hcon _ (Scene.viewed_rigid hp.seen.rigid hg k frame)
      (fun i _ w hw => hws w (List.mem_of_getElem? hw))).symm
  have hd : ∀ i ≤ s.rounds, ∀ w ∈ data i, Geo.Fits (sc.viewed g k frame) w := by
    intro i hi w hw
    cases i with
    | zero =>
      obtain ⟨j, _, hj⟩ := forall₂_right hdata w hw
      exact hws w (List.mem_of_getElem? hj)
    | succ i =>
      obtain ⟨all, e, hall⟩ := hnext i (by omega)
      rw [e] at hw
      exact points hall w (List.mem_of_mem_take hw)
  have hall : ∀ i ≤ s.rounds + 1, poses i = sc.viewed g k frame := by
    intro i
    induction i with
    | zero => intro _; exact h0
    | succ i ih =>
      intro hi
      have h1 := (hstep i (by omega)).2.2
      rw [ih (by omega), (C55_single_exact_partial (hd i (by omega)) 0 s.rate s.patience).1] at h1
      exact (Option.some.inj h1).symm
  exact hall _ (le_refl _)

theorem registerTop_right (hp : sc.Pictured W) {s : TopSettings} {o : TopOracle (Iso ℝ)} (ho : ExactPlacing sc W s o)
    {d : Data (Iso ℝ)} (hd : d.Consistent) (ht : AllTrue sc d) {r frame : Nat} {F : Frame}
    (hR : d.recons.get r = some R) (hF : d.frames.get frame = some F) {views : List Nat}
    (hlive : ∀ v ∈ views, R.LiveView v) {pose : Iso ℝ} {ms : FMap (List Nat)}
    (h : registerTop o s d r frame views = some (some (pose, ms))) :
    Right sc R frame pose ms.get ∧ R.ValidMatches F.nfeat ms.get := by
  obtain ⟨lim, ps, consensus, hc, hj⟩ := ho.judge
  have hcons := hd.recons r R hR
  obtain ⟨g, k, hg, hk, hT⟩ := ht r R hR
  have hsearch : ∀ f, R.Searchable views (o.knn R frame f) := by
    intro f v hv
    obtain ⟨V, hV⟩ := hlive v hv
    exact ⟨V, hV, ho.range R frame f v V hV⟩
  unfold registerTop at h
  rw [hR, hF] at h
  simp only [ho.order, hj] at h
  split at h
  · cases h
  · cases h
  · cases h
  rename_i e
  cases h
  obtain ⟨_, hvalid, _⟩ := registration_matches hcons ho.ro (fun f _ => hsearch f) (byObservations_perm R) e
  have H := pose_data hp hg hcons hT
  obtain ⟨ml, _, hst, _, _, hfound, _, hmatch, _⟩ := verified_pose hcons H.complete H.rigid H.unit H.cosine
    (fun f _ => hp.every frame f) lim ps hc.fair ho.ro (fun f _ => hsearch f) e
  have hdep : ∀ m ∈ ml, ∀ l ∈ m.1, R.Depicts sc l (sc.point frame m.2) := fun m hm l hl =>
    ho.right R frame views m.2 m.1 l ⟨g, k, hg, hk, hT⟩ (hst m hm).2 hl
  refine ⟨⟨⟨g, k, hg, hk, hT, found_pose hp hg hk hcons hT hdep hc hfound⟩, ?_⟩, hvalid⟩
  intro f ls l hf hl
  exact hdep (ls, f) ((hmatch f ls).mp hf).1 l hl

/-! ## Calls -/

/-- Consistent tables and true reconstructions. -/
def Kept (sc : Scene) (d : Data (Iso ℝ)) : Prop := d.Consistent ∧ AllTrue sc d

theorem Kept.step (hp : sc.Pictured W) {d d' : Data (Iso ℝ)} (hd : Kept sc d) {op : Op (Iso ℝ)} (hv : Valid d op)
    (hh : Honest sc W d op) (h : Sfm.step d op = some d') : Kept sc d' :=
  ⟨(step_ok hd.1 hv).2 d' h, step_true hp.seen hd.1 hd.2 hv hh h⟩

/-- A reconstruction loses views or is removed. -/
theorem moves_of {P : Type} {d d' : Data P} (hd : d.Consistent) {r : Nat} {R : Recon P}
    (hR : d.recons.get r = some R) (hc : d'.Consistent) (hg : d.GrowsK d')
    (ho : ∀ q, q ≠ r → d'.recons.get q = d.recons.get q)
    (hr : ∀ R', d'.recons.get r = some R' → ∀ w W', R'.views.get w = some W' →
      ∃ W, R.views.get w = some W ∧ W'.frame = W.frame) (f : Nat) : Moves d d' f := by
  refine ⟨hc, live_of_grows hd hg, ?_⟩
  intro q R' v V' h1 h2
  right
  by_cases hq : q = r
  · subst hq
    obtain ⟨W, hW, e⟩ := hr R' h1 v V' h2
    exact ⟨q, R, v, W, hR, hW, e.symm⟩
  · rw [ho q hq] at h1
    exact ⟨q, R', v, V', h1, h2, rfl⟩

theorem applyConstraints_moves {P : Type} [Mul P] [Inv P] (ω : Nat → Oracle P) (s : Settings) {d : Data P}
    (hd : d.Consistent) {r : Nat} {R : Recon P} (hR : d.recons.get r = some R) {d' : Data P} {b : Bool}
    (h : d.applyConstraints ω s r = some (d', b)) (f : Nat) :
    Moves d d' f ∧ (b = true → ∃ R', d'.recons.get r = some R') := by
  have hg := grows_applyConstraints h
  unfold Data.applyConstraints at h
  rw [hR] at h
  obtain ⟨a1, _, _, a4, a5, a6⟩ := Data.applyLoop_ok ω r _ _ hd hR h
  refine ⟨moves_of hd hR a1 hg a4 ?_ f, fun hb => (a5 hb).imp fun _ h => h.1⟩
  intro R' hR' w W' hW'
  cases b with
  | false => rw [a6 rfl] at hR'; cases hR'
  | true =>
    obtain ⟨R'', hR'', hv⟩ := a5 rfl
    rw [hR'] at hR''
    cases hR''
    obtain ⟨W, h1, h2, _⟩ := hv w W' hW'
    exact ⟨W, h1, h2⟩

theorem filterObservations_moves {P : Type} (ω : Oracle P) (s : Settings) {d : Data P}
    (hd : d.Consistent) {r : Nat} {R : Recon P} (hR : d.recons.get r = some R) {d' : Data P} {b : Bool}
    (h : d.filterObservations ω s r = some (d', b)) (f : Nat) :
    Moves d d' f ∧ (b = true → ∃ R', d'.recons.get r = some R') := by
  obtain ⟨_, _, R', e, hc, _, _, ho, href, ht, hf⟩ := Data.filterObservations_ok ω s hd hR
  rw [h] at e
  cases e
  refine ⟨moves_of hd hR hc (Data.grows_filterObservations h) ho ?_ f, fun hb => ⟨R', (ht hb).1⟩⟩
  intro R'' hR'' w W' hW'
  cases b with
  | false => rw [(hf rfl).1] at hR''; cases hR''
  | true =>
    rw [(ht rfl).1] at hR''
    cases hR''
    have := href.views w
    rw [hW'] at this
    cases hW : R.views.get w with
    | none => rw [hW] at this; cases this
    | some W =>
      rw [hW] at this
      simp only [Option.map_some, Option.some.injEq, Prod.mk.injEq] at this
      exact ⟨W, rfl, this.1⟩

theorem optimizeLoop_moves {P : Type} [Mul P] [Inv P] (ω : Nat → Nat → Oracle P) (ω' : Nat → Oracle P) (s : Settings)
    (r f n : Nat) : ∀ {d : Data P} {R : Recon P}, d.Consistent → d.recons.get r = some R → ∀ {d' b},
    Data.optimizeLoop ω ω' s r n d = some (d', b) → Moves d d' f := by
  induction n with
  | zero =>
    intro d R hd hR d' b h
    cases h
    exact Moves.refl hd f
  | succ n ih =>
    intro d R hd hR d' b h
    unfold Data.optimizeLoop at h
    split at h
    · cases h
    · rename_i h1
      cases h
      exact (applyConstraints_moves _ s hd hR h1 f).1
    rename_i d1 h1
    obtain ⟨m1, l1⟩ := applyConstraints_moves _ s hd hR h1 f
    obtain ⟨R1, hR1⟩ := l1 rfl
    split at h
    · cases h
    · rename_i h2
      cases h
      exact m1.trans (filterObservations_moves _ s m1.cons hR1 h2 f).1
    rename_i d2 h2
    obtain ⟨m2, l2⟩ := filterObservations_moves _ s m1.cons hR1 h2 f
    obtain ⟨R2, hR2⟩ := l2 rfl
    exact (m1.trans m2).trans (ih m2.cons hR2 h)

theorem optimizeTop_kept (hp : sc.Pictured W) {s : TopSettings} {o : TopOracle (Iso ℝ)} (ho : ExactPlacing sc W s o)
    {d d' : Data (Iso ℝ)} (hd : Kept sc d) {r : Nat} (hR : d.recons.get r = some R)
    (h : optimizeTop o s d r = some d') (f : Nat) : Kept sc d' ∧ Moves d d' f := by
  refine ⟨hd.step hp (op := .optimize o.opt o.filt s.ops r) ⟨R, hR⟩ ho.opt h, ?_⟩
  obtain ⟨b, h'⟩ := map_fst h
  exact optimizeLoop_moves _ _ _ r f _ hd.1 hR h'

theorem localizeIncorporate_kept (hp : sc.Pictured W) {s : TopSettings} {o : TopOracle (Iso ℝ)}
    (ho : ExactPlacing sc W s o) {d d' : Data (Iso ℝ)} (hd : Kept sc d) {r frame : Nat} (hfree : d.IsFree frame)
    {views : List Nat} (hv : d.HasViews r views) (h : localizeIncorporate o s d frame r views = some d') :
    Kept sc d' ∧ Moves d d' frame := by
  obtain ⟨F, hF, hFv⟩ := hfree
  obtain ⟨_, R, hR, hlive⟩ := hv
  have hinc : ∀ {d1 x}, incorporateTop o s d r frame views = some (d1, x) →
      Kept sc d1 ∧ Moves d d1 frame ∧ ∃ R1, d1.recons.get r = some R1 := by
    intro d1 x h1
    unfold incorporateTop at h1
    split at h1
    · cases h1
    · cases h1
      exact ⟨hd, Moves.refl hd.1 _, R, hR⟩
    rename_i pose ms hreg
    obtain ⟨hr, hval⟩ := registerTop_right hp ho hd.1 hd.2 hR hF hlive hreg
    obtain ⟨d2, R', x', e, _, _, _, _, hR', _⟩ :=
      Data.incorporateFrame_spec o.record ho.record s.ops hd.1 hR hF hFv pose hval
    rw [h1] at e
    cases e
    refine ⟨hd.step hp (op := .incorporateFrame o.record s.ops r frame pose ms.get)
      ⟨ho.record, R, F.nfeat, hR, ⟨F, hF, rfl, hFv⟩, hval⟩ ⟨ho.three, ?_⟩ ?_,
      incorporateFrame_moves ho.record s.ops hd.1 hR hF hFv pose hval h1, R', hR'⟩
    · intro Q hQ
      rw [hR] at hQ
      cases hQ
      exact hr
    · show (d.incorporateFrame o.record s.ops r frame pose ms.get).map Prod.fst = _
      rw [h1]
      rfl
  unfold localizeIncorporate at h
  split at h
  · cases h
  · rename_i h1
    obtain ⟨k1, m1, R1, hR1⟩ := hinc h1
    obtain ⟨k2, m2⟩ := optimizeTop_kept hp ho k1 hR1 h frame
    exact ⟨k2, m1.trans m2⟩
  · rename_i h1
    cases h
    obtain ⟨k1, m1, _⟩ := hinc h1
    exact ⟨k1, m1⟩

/-- A loop over at most one reconstruction. -/
theorem localizeLoop_kept (hp : sc.Pictured W) {s : TopSettings} {ω : Nat → TopOracle (Iso ℝ)}
    (hω : ∀ i, ExactPlacing sc W s (ω i)) {d d' : Data (Iso ℝ)} (hd : Kept sc d) {frame : Nat} (hfree : d.IsFree frame)
    {es : List (Nat × List Nat)} (hone : es.length ≤ 1) (hv : ∀ e ∈ es, d.HasViews e.1 e.2)
    (h : localizeLoop ω s frame es d = some d') : Kept sc d' ∧ Moves d d' frame := by
  match es, hone with
  | [], _ =>
    cases h
    exact ⟨hd, Moves.refl hd.1 _⟩
  | [(dst, views)], _ =>
    unfold localizeLoop at h
    have hfree' := hfree
    obtain ⟨F, hF, hFv⟩ := hfree'
    simp only [hF, hFv] at h
    split at h
    · cases h
    · rename_i d1 h1
      have h : some d1 = some d' := h
      cases h
      exact localizeIncorporate_kept hp (hω _) hd hfree (hv (dst, views) (by simp)) h1

theorem exactTriangulator_of {tri : List (Iso ℝ × V3 ℝ) → Option (V4 ℝ)} (h : SoundTriangulator tri) :
    ExactTriangulator tri := fun l x p hx ht => h l x p hx.rigid hx.looks hx.across ht

theorem localizeStart_kept (hp : sc.Pictured W) {s : TopSettings} (hs : 0 < s.start.minScales)
    {o : FrameOracle (Iso ℝ) ℝ} (ho : ExactFrame sc W s o) {d d' : Data (Iso ℝ)} (hd : Kept sc d) {frame : Nat}
    {free : List Nat} (hnd : free.Nodup) (hfree : ∀ g ∈ free, g ≠ frame ∧ d.IsFree g)
    (h : localizeStart o s d frame free = some d') : Kept sc d' := by
  unfold localizeStart at h
  split at h
  · cases h
  rename_i F hF
  split at h
  · cases h
    exact hd
  rename_i hFv
  obtain ⟨x, h'⟩ := map_fst h
  obtain ⟨geo, o', e, hfair, hsearch, hcon⟩ := ho.start d
  rw [e, ho.idp] at h'
  rcases tryInit_honest hp.seen (exactTriangulator_of hp.sound) hcon hfair hs hd.1 hsearch ⟨F, hF, hFv⟩
    (fun g hg => (hfree g hg).2) hnd (fun hg => (hfree _ hg).1 rfl)
    (fun g hg => hp.parallax _ _ (fun e => (hfree g hg).1 e.symm)) h' with rfl | ⟨op, hv, hh, hst⟩
  · exact hd
  · exact hd.step hp hv hh hst

theorem foundLoop_kept (hp : sc.Pictured W) {s : TopSettings} {ω : Nat → TopOracle (Iso ℝ)}
    (hω : ∀ i, ExactPlacing sc W s (ω i)) {similar : Data (Iso ℝ) → Nat → List Nat} (hsn : ∀ d f, (similar d f).Nodup)
    (hsl : ∀ d f g, g ∈ similar d f → ∃ G, d.frames.get g = some G) (r : Nat) (fs : List Nat) :
    ∀ {d d' : Data (Iso ℝ)}, Kept sc d → foundLoop ω similar s r fs d = some d' → Kept sc d' := by
  induction fs with
  | nil =>
    intro d d' hd h
    cases h
    exact hd
  | cons f fs ih =>
    intro d d' hd h
    unfold foundLoop at h
    split at h
    · cases h
    rename_i F hF
    split at h
    · exact ih hd h
    rename_i hv
    have hFv : F.view = none := by simpa using hv
    split at h
    · cases h
    rename_i d1 h1
    have hd1 : Kept sc d1 := by
      unfold localizeFound at h1
      obtain ⟨m, free, e, _, _, hm, _⟩ := candidates_good hd.1 s.tracking ⟨F, hF⟩ (hsn d f) (hsl d f)
      rw [e] at h1
      simp only at h1
      split at h1
      · cases h1
        exact hd
      · rename_i vs hvs
        exact (localizeIncorporate_kept hp (hω _) hd ⟨F, hF, hFv⟩ (hm r vs hvs) h1).1
    split at h
    · exact ih hd1 h
    · cases h
      exact hd1

theorem addFrameTop_kept (hp : sc.Pictured W) {s : TopSettings} (hs : 0 < s.start.minScales)
    {o : FrameOracle (Iso ℝ) ℝ} (ho : ExactFrame sc W s o) {d d' : Data (Iso ℝ)} (hd : Kept sc d) {feed n f : Nat}
    (hfeed : ∃ fs, d.feeds.get feed = some fs) (hone : FoundInOne o s d feed n)
    (h : addFrameTop o s d feed n = some (d', f)) : Kept sc d' := by
  obtain ⟨fs, hfs⟩ := hfeed
  obtain ⟨d1, e1, hc1, hr1, hF1, _⟩ := Data.addFrame_spec (hd.1.off (fun _ => False)) hfs n
  have hd1 : Kept sc d1 := ⟨hc1.on, by intro r R hR; rw [hr1] at hR; exact hd.2 r R hR⟩
  have hfree1 : d1.IsFree d.frames.next := ⟨_, hF1, rfl⟩
  obtain ⟨m, free, e2, hm, hnd, hviews, hfree⟩ := candidates_good hd1.1 s.tracking ⟨_, hF1⟩
    (ho.similarOnce d1 d.frames.next) (ho.similarLive d1 d.frames.next)
  obtain ⟨m', free', e2', _, _, a3, a4, _⟩ := findCandidates_spec hd1.1 s.tracking ⟨_, hF1⟩
    (ho.similarOnce d1 d.frames.next) (ho.similarLive d1 d.frames.next)
  rw [e2] at e2'
  cases e2'
  have hlen : m.entries.length ≤ 1 := by
    have hkeys : ∀ a ∈ m.entries, ∀ b ∈ m.entries, a.1 = b.1 := by
      rintro ⟨r, vs⟩ ha ⟨r', vs'⟩ hb
      have ha := FMap.get_of_mem hm ha
      have hb := FMap.get_of_mem hm hb
      obtain ⟨v, hv⟩ := List.exists_mem_of_ne_nil vs (a3 r vs ha).1
      obtain ⟨v', hv'⟩ := List.exists_mem_of_ne_nil vs' (a3 r' vs' hb).1
      obtain ⟨g, G, c1, c2, c3⟩ := (a4 r v).mp ⟨vs, ha, hv⟩
      obtain ⟨g', G', c1', c2', c3'⟩ := (a4 r' v').mp ⟨vs', hb, hv'⟩
      exact hone d1 e1 g g' G G' r r' v v' c1 c2 c1' c2' c3 c3'
    have hnd : (m.entries.map Prod.fst).Nodup := hm
    match hE : m.entries with
    | [] => simp
    | [_] => simp
    | a :: b :: l =>
      exfalso
      rw [hE] at hnd
      simp only [List.map_cons, List.nodup_cons, List.mem_cons, not_or] at hnd
      exact hnd.1.1 (hkeys a (by simp [hE]) b (by simp [hE]))
  unfold addFrameTop at h
  rw [e1] at h
  simp only [e2] at h
  split at h
  · cases h
  rename_i d2 h2
  cases h
  unfold tryLocalize at h2
  split at h2
  · cases h2
  rename_i dl h3
  have hperm := ho.sort m.entries
  obtain ⟨kl, ml⟩ := localizeLoop_kept hp ho.first hd1 hfree1 (by rw [hperm.length_eq]; exact hlen)
    (fun e he => hviews e.1 e.2 (FMap.get_of_mem hm (hperm.mem_iff.mp he))) h3
  split at h2
  · cases h2
  rename_i ds h4
  have ks := localizeStart_kept hp hs ho kl hnd
    (fun g hg => ⟨(hfree g hg).1, ml.free hd1.1 (hfree g hg).1 (hfree g hg).2⟩) h4
  unfold localizeRest at h2
  split at h2
  · cases h2
  split at h2
  · cases h2
    exact ks
  · exact foundLoop_kept hp ho.second ho.similarOnce ho.similarLive _ _ ks h2

theorem applyConstraints_kept (hp : sc.Pictured W) {ω : Nat → Oracle (Iso ℝ)} {rate : ℝ}
    (hω : ∀ i, (ω i).constrain = constrainPose rate) (s : Settings) {d d' : Data (Iso ℝ)} (hd : Kept sc d) {r : Nat}
    (hR : d.recons.get r = some R) {b : Bool} (h : d.applyConstraints ω s r = some (d', b)) : Kept sc d' := by
  unfold Data.applyConstraints at h
  rw [hR] at h
  obtain ⟨g, k, hg, hk, hT⟩ := hd.2 r R hR
  have hc := hd.1.recons r R hR
  have hrig := hT.rigid hp.seen.rigid hg
  obtain ⟨a1, _, _, a4, _⟩ := Data.applyLoop_ok ω r _ _ hd.1 hR h
  refine ⟨a1, hd.2.change a4 (fun Q hQ => ⟨g, k, hg, hk, hT.part hc ?_⟩)⟩
  exact Data.applyLoop_part hω r _ _ hd.1 hR hrig (Data.edgesHold_of hc hrig hT.constraints) h Q hQ

theorem call_kept (hp : sc.Pictured W) {s : TopSettings} (hs : 0 < s.start.minScales) {d d' : Data (Iso ℝ)}
    (hd : Kept sc d) {c : Call (Iso ℝ) ℝ} (hc : ExactCall sc W s d c) (h : c.run s d = some d') : Kept sc d' := by
  cases c <;> simp only [Call.run] at h
  case addFeed => exact hd.step hp (op := .addFeed) trivial trivial h
  case addFrame o feed n =>
    obtain ⟨ho, hf, hone⟩ := hc
    obtain ⟨f, h'⟩ := map_fst h
    exact addFrameTop_kept hp hs ho hd hf hone h'
  case incorporateReconstruction ω tr src dst m =>
    exact hd.step hp (op := .incorporateReconstruction ω s.ops tr src dst m) hc.1 hc.2 h
  case normalize f g r =>
    have hc' := hc
    obtain ⟨a, ha, R, v, V, hR, hV, _⟩ := hc'
    exact hd.step hp (op := .normalize f g r) ⟨R, v, hR, V, hV⟩ hc h
  case optimize ω ω' r =>
    obtain ⟨hω, R, hR⟩ := hc
    exact hd.step hp (op := .optimize ω ω' s.ops r) ⟨R, hR⟩ hω h
  case applyConstraints ω r =>
    obtain ⟨⟨rate, hω⟩, R, hR⟩ := hc
    obtain ⟨b, h'⟩ := map_fst h
    exact applyConstraints_kept hp hω s.ops hd hR h'
  case regenerate ω ω' ω'' r =>
    obtain ⟨hω, hω', R, hR⟩ := hc
    obtain ⟨d1, R1, e1, _, hR1, _⟩ := Data.regenerate_ok ω (fun i => (hω i).1) s.ops hd.1 hR
    rw [e1] at h
    have k1 : Kept sc d1 := hd.step hp (op := .regenerateConstraints ω s.ops r) ⟨fun i => (hω i).1, R, hR⟩
      (fun i => (hω i).2) e1
    exact k1.step hp (op := .optimize ω' ω'' s.ops r) ⟨R1, hR1⟩ hω' h
  case filterObservations ω r =>
    exact hd.step hp (op := .filterObservations ω s.ops r) hc trivial h
  case filterLandmarks ω r =>
    exact hd.step hp (op := .filterLandmarks ω r) hc trivial h
  case mergeDedup loss r a b =>
    obtain ⟨R, hR, ha, hb, x, hx⟩ := hc
    refine hd.step hp (op := .mergeDedup loss r a b) ⟨R, hR, ha, hb⟩ ?_ h
    intro Q hQ
    rw [hR] at hQ
    cases hQ
    exact ⟨x, hx⟩

end Verif.Sfm
