import Verif.Model.Sandbox
import Verif.Props.SfmTop
import Verif.Props.Export
import Verif.Props.Normalize

/-!
# C101: runs of vslam-sandbox
-/

namespace Verif.Sfm

open Verif.Geo

variable {P S E : Type}

/-- What was done so far read from left to right, `done` being the reconstructions normalised before: none is normalised
twice, and only normalised ones are exported. -/
def Orderly (done : List Nat) : List (Event E) → Prop
  | [] => True
  | .added _ :: l => Orderly done l
  | .normalised r :: l => r ∉ done ∧ Orderly (r :: done) l
  | .exported _ r _ :: l => r ∈ done ∧ Orderly done l

/-- The frames that were added. -/
def addedOf : List (Event E) → List Nat
  | [] => []
  | .added f :: l => f :: addedOf l
  | _ :: l => addedOf l

/-- The reconstructions that were normalised. -/
def normalisedOf : List (Event E) → List Nat
  | [] => []
  | .normalised r :: l => r :: normalisedOf l
  | _ :: l => normalisedOf l

/-- The two methods called besides `add_frame` do not panic, and normalising only replaces poses. -/
structure Sandbox.Works (X : Sandbox P E) : Prop where
  sane : X.settings.Sane
  normal : ∀ d r R, d.Sound → d.recons.get r = some R → ∃ f g, X.normal d R = some (R.mapPoses f g)
  mesh : ∀ d r R, d.Sound → d.recons.get r = some R → ∃ e, X.mesh d R = some e

/-- What a file shows: the reconstruction at the time, which contains the frame. -/
def ExportShown (X : Sandbox P E) (f r : Nat) (e : E) : Prop :=
  ∃ d R v V, Data.Sound d ∧ d.recons.get r = some R ∧ R.views.get v = some V ∧ V.frame = f ∧ X.mesh d R = some e

theorem orderly_append {done : List Nat} {l l' : List (Event E)} :
    Orderly done (l ++ l') ↔ Orderly done l ∧ Orderly ((normalisedOf l).reverse ++ done) l' := by
  induction l generalizing done with
  | nil => simp [Orderly, normalisedOf]
  | cons x l ih =>
    cases x with
    | added f => simp only [List.cons_append, Orderly, normalisedOf]; exact ih
    | normalised r =>
      simp only [List.cons_append, Orderly, normalisedOf, ih, List.reverse_cons, List.append_assoc, and_assoc]
      rfl
    | exported f r e => simp only [List.cons_append, Orderly, normalisedOf, ih, and_assoc]

theorem addedOf_append (l l' : List (Event E)) : addedOf (l ++ l') = addedOf l ++ addedOf l' := by
  induction l with
  | nil => rfl
  | cons x l ih => cases x <;> simp only [List.cons_append, addedOf, ih]

variable [Mul P] [Inv P] [LinearOrder S]

theorem picture_good {X : Sandbox P E} (hX : X.Works) {feed : Nat} {d : Data P} (hd : d.Sound) (done : List Nat)
    {o : FrameOracle P S} (ho : o.Fair) (hf : ∃ fs, d.feeds.get feed = some fs) (n : Nat) :
    ∃ d' done' e f, X.picture feed d done o n = some (d', done', e) ∧ d'.Sound ∧ d.Grows d' ∧ Orderly done e ∧
      done' = (normalisedOf e).reverse ++ done ∧ addedOf e = [f] ∧ d.frames.get f = none ∧
      (∃ F, d'.frames.get f = some F) ∧ ∀ f' r m, Event.exported f' r m ∈ e → X.output = true ∧ ExportShown X f' r m := by
  obtain ⟨d1, f, e1, hd1, hfresh, hkeep⟩ := addFrameTop_good ho hX.sane hd hf n
  have hk : d.KeysOk := fun r R hR => hd.cons.reconsWF.fresh r R hR
  have hg1 : d.Grows d1 := grows_addFrameTop e1 hk
  obtain ⟨F, hF⟩ := hkeep f (Or.inl rfl)
  unfold Sandbox.picture
  simp only [e1, hF, Option.bind_eq_bind, Option.bind_some]
  cases hv : F.view with
  | none =>
    exact ⟨d1, done, [.added f], f, rfl, hd1, hg1, trivial, rfl, rfl, hfresh, ⟨F, hF⟩, fun f' r m h => by simp at h⟩
  | some x =>
    obtain ⟨r, v⟩ := x
    dsimp only
    obtain ⟨R, V, hR, hV, hVf⟩ := hd1.cons.frameView f F r v hF hv
    -- normalising
    have hnorm : ∃ d2 done' e, X.normalise d1 done r = some (d2, done', e) ∧ d2.Sound ∧ d1.Grows d2 ∧ Orderly done e ∧
        done' = (normalisedOf e).reverse ++ done ∧ addedOf e = [] ∧ r ∈ done' ∧
        (∃ F, d2.frames.get f = some F) ∧ (∃ R' V', d2.recons.get r = some R' ∧ R'.views.get v = some V' ∧ V'.frame = f) ∧
        ∀ f' r m, Event.exported f' r m ∉ e := by
      unfold Sandbox.normalise
      by_cases hmem : r ∈ done
      · rw [if_pos hmem]
        exact ⟨d1, done, [], rfl, hd1, .refl d1, trivial, rfl, rfl, hmem, ⟨F, hF⟩, ⟨R, V, hR, hV, hVf⟩,
          fun f' r m h => by simp at h⟩
      · rw [if_neg hmem]
        obtain ⟨g, k, hn⟩ := hX.normal d1 r R hd1 hR
        have hsize : R.views.size ≠ 0 := by
          have := ThreeViews.size (hd1.three r R hR)
          omega
        have hstep : (Call.normalize g k r : Call P S).run X.settings d1 = d1.onRecon r (X.normal d1) := by
          simp only [Call.run, step, Data.onRecon, hR, hn, if_neg hsize]
        obtain ⟨d2, e2, hd2⟩ := call_good (S := S) hX.sane hd1 (c := .normalize g k r) ⟨R, hR⟩
        have hk1 : d1.KeysOk := fun r R hR => hd1.cons.reconsWF.fresh r R hR
        have hg2 := call_grows e2 hk1
        rw [hstep] at e2
        obtain ⟨F2, hF2, _⟩ := hg2.frameData f F hF
        have e3 := e2
        simp only [Data.onRecon, hR, hn, Option.some_inj] at e3
        refine ⟨d2, r :: done, [.normalised r], by rw [e2]; rfl, hd2, hg2, ⟨hmem, trivial⟩, rfl, rfl, by simp, ⟨F2, hF2⟩,
          ⟨R.mapPoses g k, { V with pose := g V.pose }, ?_, by rw [Recon.mapPoses_views, hV]; rfl, hVf⟩, fun f' r m h => by simp at h⟩
        rw [← e3]
        show (d1.recons.modify r _).get r = _
        rw [SlotMap.get_modify]
        simp [hR]
    obtain ⟨d2, done', e, h1, hd2, hg2, h2, h3, h4, h5, ⟨F2, hF2⟩, ⟨R2, V2, hR2, hV2, hVf2⟩, hno⟩ := hnorm
    -- export
    have hwrite : ∃ e', X.write d2 f r = some e' ∧ (∀ done, r ∈ done → Orderly done e') ∧ normalisedOf e' = [] ∧ addedOf e' = [] ∧
        ∀ f' r m, Event.exported f' r m ∈ e' → X.output = true ∧ ExportShown X f' r m := by
      unfold Sandbox.write
      by_cases hout : X.output = true
      · rw [if_pos hout, hR2]
        obtain ⟨m, hm⟩ := hX.mesh d2 r R2 hd2 hR2
        simp only [Option.bind_eq_bind, Option.bind_some, hm]
        refine ⟨_, rfl, fun done h => ⟨h, trivial⟩, rfl, rfl, ?_⟩
        intro f' r' m' h
        simp only [List.mem_singleton, Event.exported.injEq] at h
        obtain ⟨rfl, rfl, rfl⟩ := h
        exact ⟨hout, d2, R2, v, V2, hd2, hR2, hV2, hVf2, hm⟩
      · rw [if_neg hout]
        exact ⟨[], rfl, fun _ _ => trivial, rfl, rfl, fun f' r m h => by simp at h⟩
    obtain ⟨e', w1, w2, w3, w4, w5⟩ := hwrite
    simp only [h1, w1, Option.bind_some]
    have hn : normalisedOf (Event.added f :: (e ++ e')) = normalisedOf e := by
      have : ∀ l l' : List (Event E), normalisedOf (l ++ l') = normalisedOf l ++ normalisedOf l' := by
        intro l l'
        induction l with
        | nil => rfl
        | cons x l ih => cases x <;> simp only [List.cons_append, normalisedOf, ih]
      rw [normalisedOf, this, w3, List.append_nil]
      intro r h; cases h
    refine ⟨d2, done', .added f :: (e ++ e'), f, rfl, hd2, hg1.trans hk hg2, ?_, ?_, ?_, hfresh, ⟨F2, hF2⟩, ?_⟩
    · show Orderly done (e ++ e')
      exact orderly_append.2 ⟨h2, w2 _ (h3 ▸ h5)⟩
    · rw [hn, h3]
    · show f :: addedOf (e ++ e') = [f]
      rw [addedOf_append, h4, w4]
      rfl
    · intro f' r' m hm
      simp only [List.mem_cons, reduceCtorEq, List.mem_append, false_or] at hm
      rcases hm with hm | hm
      · exact absurd hm (hno _ _ _)
      · exact w5 _ _ _ hm

theorem pictures_good {X : Sandbox P E} (hX : X.Works) {feed : Nat} : ∀ (ps : List (FrameOracle P S × Nat)) {d : Data P}
    (_ : d.Sound) (done : List Nat) (_ : ∀ p ∈ ps, p.1.Fair) (_ : ∃ fs, d.feeds.get feed = some fs),
    ∃ d' e, X.pictures feed ps d done = some (d', e) ∧ d'.Sound ∧ d.Grows d' ∧ Orderly done e ∧
      (addedOf e).length = ps.length ∧ (addedOf e).Nodup ∧
      (∀ f ∈ addedOf e, d.frames.get f = none ∧ ∃ F, d'.frames.get f = some F) ∧
      ∀ f' r m, Event.exported f' r m ∈ e → X.output = true ∧ ExportShown X f' r m
  | [], d, hd, _, _, _ => ⟨d, [], rfl, hd, .refl d, trivial, rfl, List.nodup_nil, fun f h => by simp [addedOf] at h,
      fun f' r m h => by simp at h⟩
  | (o, n) :: ps, d, hd, done, ho, hf => by
    obtain ⟨d1, done1, e1, f, g1, hd1, hg1, h1, h2, h3, h4, ⟨F, hF⟩, h5⟩ := picture_good hX hd done (ho (o, n) (by simp)) hf n
    obtain ⟨fs, hfs⟩ := hf
    obtain ⟨gs, hgs⟩ := hg1.feedPrefix feed fs hfs
    obtain ⟨d2, e2, k1, hd2, hg2, k2, k3, k4, k5, k6⟩ := pictures_good hX ps hd1 done1
      (fun p hp => ho p (List.mem_cons_of_mem _ hp)) ⟨_, hgs⟩
    refine ⟨d2, e1 ++ e2, ?_, hd2, hg1.trans (fun r R hR => hd.cons.reconsWF.fresh r R hR) hg2, orderly_append.2 ⟨h1, h2 ▸ k2⟩, ?_, ?_, ?_, ?_⟩
    · unfold Sandbox.pictures
      simp only [g1, k1, Option.bind_eq_bind, Option.bind_some]
      rfl
    · rw [addedOf_append, h3, List.length_append, k3, List.length_singleton, List.length_cons, Nat.add_comm]
    · rw [addedOf_append, h3, List.singleton_append, List.nodup_cons]
      refine ⟨fun hm => ?_, k4⟩
      rw [(k5 f hm).1] at hF
      cases hF
    · intro f' hm
      rw [addedOf_append, h3, List.singleton_append, List.mem_cons] at hm
      rcases hm with rfl | hm
      · obtain ⟨F', hF', _⟩ := hg2.frameData f' F hF
        exact ⟨h4, F', hF'⟩
      · refine ⟨?_, (k5 f' hm).2⟩
        cases hn : d.frames.get f' with
        | none => rfl
        | some G =>
          obtain ⟨G', hG', _⟩ := hg1.frameData f' G hn
          rw [(k5 f' hm).1] at hG'
          cases hG'
    · intro f' r m hm
      rcases List.mem_append.1 hm with hm | hm
      · exact h5 _ _ _ hm
      · exact k6 _ _ _ hm

/-- The data in the file, if there is one. -/
def FileSound (file : Option (Data P)) : Prop := ∀ d, file = some d → d.Sound

omit [Mul P] [Inv P] in
theorem empty_sound : (Data.empty : Data P).Sound := by
  refine ⟨Data.empty_consistent, ?_, ?_⟩
  · intro r R h; simp [Data.empty, SlotMap.empty, SlotMap.get, FMap.empty, FMap.get] at h
  · intro r R v V h; simp [Data.empty, SlotMap.empty, SlotMap.get, FMap.empty, FMap.get] at h

/-- **C101** A run of the program never panics. Every picture becomes a new frame; a reconstruction is normalised at most
once, and before it is exported for the first time; what is exported is a reconstruction that contains the frame. What is
saved is sound, and all frames saved before are still there. Without pictures nothing is saved. -/
theorem C101_session {X : Sandbox P E} (hX : X.Works) {file : Option (Data P)} (hfile : FileSound file)
    {ps : List (FrameOracle P S × Nat)} (ho : ∀ p ∈ ps, p.1.Fair) :
    ∃ file' e, X.session file ps = some (file', e) ∧ FileSound file' ∧ Orderly [] e ∧
      (addedOf e).length = ps.length ∧ (addedOf e).Nodup ∧
      (∀ f ∈ addedOf e, (file.getD Data.empty).frames.get f = none ∧ ∃ d' F, file' = some d' ∧ d'.frames.get f = some F) ∧
      (∀ f r m, Event.exported f r m ∈ e → X.output = true ∧ ExportShown X f r m) ∧
      (ps = [] → file' = file ∧ e = []) ∧
      ∀ d, file = some d → ∃ d', file' = some d' ∧ ∀ f F, d.frames.get f = some F → ∃ F', d'.frames.get f = some F' ∧
        F'.feed = F.feed ∧ F'.feedFrame = F.feedFrame ∧ F'.nfeat = F.nfeat := by
  have hs : (file.getD Data.empty).Sound := by
    cases file with
    | none => exact empty_sound
    | some d => exact hfile d rfl
  obtain ⟨d0, e0, hd0⟩ := call_good (S := S) hX.sane hs (c := .addFeed) trivial
  cases e0
  have hfeed : ∃ fs, (file.getD Data.empty).addFeed.feeds.get (file.getD Data.empty).feeds.next = some fs := by
    refine ⟨[], ?_⟩
    show ((file.getD Data.empty).feeds.insert []).get _ = _
    rw [SlotMap.get_insert hs.cons.feedsWF, if_pos rfl]
  have hg0 : (file.getD Data.empty).Grows (file.getD Data.empty).addFeed :=
    call_grows (S := S) (s := X.settings) (c := .addFeed) rfl (fun r R hR => hs.cons.reconsWF.fresh r R hR)
  obtain ⟨d', e, h1, h2, h3, h4, h5, h6, h7, h8⟩ := pictures_good hX ps hd0 [] ho hfeed
  refine ⟨if ps = [] then file else some d', e, ?_, ?_, h4, h5, h6, ?_, h8, ?_, ?_⟩
  · unfold Sandbox.session
    simp only [h1, Option.bind_eq_bind, Option.bind_some]
    rfl
  · intro d hd
    split at hd
    · exact hfile d hd
    · cases hd; exact h2
  · intro f hf
    have hne : ps ≠ [] := by
      rintro rfl
      rw [List.eq_nil_of_length_eq_zero h5] at hf
      cases hf
    obtain ⟨g1, F, hF⟩ := h7 f hf
    exact ⟨g1, d', F, if_neg hne, hF⟩
  · rintro rfl
    refine ⟨if_pos rfl, ?_⟩
    cases h1
    rfl
  · rintro d rfl
    by_cases hp : ps = []
    · exact ⟨d, if_pos hp, fun f F hF => ⟨F, hF, rfl, rfl, rfl⟩⟩
    · refine ⟨d', if_neg hp, fun f F hF => ?_⟩
      obtain ⟨F1, hF1, a1, a2, a3⟩ := hg0.frameData f F hF
      obtain ⟨F2, hF2, b1, b2, b3⟩ := h3.frameData f F1 hF1
      exact ⟨F2, hF2, b1.trans a1, b2.trans a2, b3.trans a3⟩

/-- **C101** Neither does any number of runs with the same data file, whatever the settings of each. -/
theorem C101_sessions : ∀ (runs : List (Sandbox P E × List (FrameOracle P S × Nat)))
    (_ : ∀ x ∈ runs, x.1.Works ∧ ∀ p ∈ x.2, p.1.Fair), ∃ file', sessions runs none = some file' ∧ FileSound file' := by
  have key : ∀ (runs : List (Sandbox P E × List (FrameOracle P S × Nat))) (file : Option (Data P)), FileSound file →
      (∀ x ∈ runs, x.1.Works ∧ ∀ p ∈ x.2, p.1.Fair) → ∃ file', sessions runs file = some file' ∧ FileSound file' := by
    intro runs
    induction runs with
    | nil => intro file hf _; exact ⟨file, rfl, hf⟩
    | cons x runs ih =>
      intro file hf h
      obtain ⟨X, ps⟩ := x
      obtain ⟨hX, hps⟩ := h (X, ps) (by simp)
      obtain ⟨file1, e, h1, h2, _⟩ := C101_session hX hf hps
      obtain ⟨file2, h3, h4⟩ := ih file1 h2 (fun x hx => h x (List.mem_cons_of_mem _ hx))
      refine ⟨file2, ?_, h4⟩
      unfold sessions
      simp only [h1, Option.bind_eq_bind, Option.bind_some]
      exact h3
  exact fun runs h => key runs none (fun d hd => by cases hd) h

omit [Mul P] [Inv P] [LinearOrder S] in
/-- **C101** In the whole log no reconstruction is normalised twice. -/
theorem C101_once {done : List Nat} {e : List (Event E)} (h : Orderly done e) :
    (normalisedOf e).Nodup ∧ ∀ r ∈ normalisedOf e, r ∉ done := by
  induction e generalizing done with
  | nil => exact ⟨List.nodup_nil, fun r h => by cases h⟩
  | cons x e ih =>
    cases x with
    | added f => exact ih h
    | exported f r m => exact ih h.2
    | normalised r =>
      obtain ⟨h1, h2⟩ := ih h.2
      refine ⟨List.nodup_cons.2 ⟨fun hm => h2 r hm (by simp), h1⟩, ?_⟩
      intro r' hr'
      rcases List.mem_cons.1 hr' with rfl | hr'
      · exact h.1
      · exact fun hd => h2 r' hr' (List.mem_cons_of_mem _ hd)

/-- The data has bearing and colour of every feature of its frames. -/
def Stored {C : Type} (world : Data (Iso ℝ) → World C) : Prop :=
  ∀ d f F i, d.frames.get f = some F → i < F.nfeat →
    (∃ b, (world d).bearing f i = some b) ∧ ∃ c, (world d).colour f i = some c

theorem framesComplete_of_stored {C : Type} {world : Data (Iso ℝ) → World C} (hw : Stored world) (k : Nat) {d : Data (Iso ℝ)}
    (hd : d.Consistent) {r : Nat} {R : Recon (Iso ℝ)} (hR : d.recons.get r = some R) :
    FramesComplete { world d with minObservations := k } R := by
  intro v V f hV hf
  obtain ⟨F, hF, _, hl⟩ := hd.viewFrame r R v V hR hV
  exact hw d V.frame F f hF (hl ▸ hf)

/-- **C101** The methods of the program are such. -/
theorem C101_works {C : Type} {settings : TopSettings} (hs : settings.Sane) {world : Data (Iso ℝ) → World C} (hw : Stored world)
    (k : Nat) (color : C) (faces output : Bool) : (geoSandbox settings world k color faces output).Works where
  sane := hs
  normal d r R hd hR := by
    obtain ⟨v, hv⟩ : ∃ v, R.views.keys.head? = some v := by
      have := ThreeViews.size (hd.three r R hR)
      cases h : R.views.map.entries with
      | nil => simp [SlotMap.size, FMap.size, h] at this
      | cons x l => exact ⟨x.1, by simp [SlotMap.keys, FMap.keys, h]⟩
    have hlive : R.LiveView v := (SlotMap.mem_keys_iff _ _).1 (List.mem_of_mem_head? hv)
    obtain ⟨R', h'⟩ := C17_total (hd.cons.recons r R hR) (framesComplete_of_stored hw (world d).minObservations hd.cons hR) hlive
    show ∃ f g, R.views.keys.head?.bind _ = _
    rw [hv]
    obtain ⟨V, _, ⟨rfl, _⟩ | ⟨m, _, _, rfl⟩⟩ := normalize_cases h'
    · refine ⟨id, id, h'.trans ?_⟩
      simp [Recon.mapPoses]
    · exact ⟨_, _, h'⟩
  mesh d r R hd hR := by
    obtain ⟨points, cams, h, _⟩ := C19_export (hd.cons.recons r R hR) (framesComplete_of_stored hw k hd.cons hR) color faces
    exact ⟨_, h⟩

/-- **C101** A file that is exported shows at least three cameras, and the landmarks after them. -/
theorem C101_cameras {C : Type} {settings : TopSettings} {world : Data (Iso ℝ) → World C} (hw : Stored world)
    {k : Nat} {color : C} {faces output : Bool} {f r : Nat} {m : Mesh C}
    (h : ExportShown (geoSandbox settings world k color faces output) f r m) :
    ∃ (points : List (V3 ℝ × C)) (cams : List ExportCamera), 3 ≤ cams.length ∧ m = exportMesh color points cams faces := by
  obtain ⟨d, R, v, V, hd, hR, _, _, hm⟩ := h
  obtain ⟨points, cams, h, h', _⟩ := C19_export (hd.cons.recons r R hR) (framesComplete_of_stored hw k hd.cons hR) color faces
  have : m = exportMesh color (points.filterMap id) cams faces := Option.some.inj (hm.symm.trans h)
  refine ⟨_, cams, ?_, this⟩
  have := ThreeViews.size (hd.three r R hR)
  rw [← h'.length_eq, List.length_map]
  exact this

/-! ## Examples -/

namespace Ex

/-- Exports the number of views. -/
def sandbox : Sandbox Shift Nat where
  settings := topSettings 16
  normal _ R := some (R.mapPoses (fun p => ⟨2 * p.off⟩) (fun p => ⟨2 * p.off⟩))
  mesh _ R := some R.views.size
  output := true

theorem sandbox_works : sandbox.Works :=
  ⟨⟨by decide, by decide, by decide⟩, fun _ _ _ _ _ => ⟨_, _, rfl⟩, fun _ _ _ _ _ => ⟨_, rfl⟩⟩

def showEvent : Event Nat → Nat × Nat × Nat × Nat
  | .added f => (0, f, 0, 0)
  | .normalised r => (1, r, 0, 0)
  | .exported f r n => (2, f, r, n)

end Ex

open Ex in
/-- Two runs with three and two pictures: the third frame starts a reconstruction, which is normalised; in the second run
the fourth frame (of a new feed) joins it, and it is normalised again. -/
example : ((sandbox.session none [(topFrames, 32), (topFrames, 32), (topFrames, 32)]).map (fun x => x.2.map showEvent) =
    some [(0, 0, 0, 0), (0, 1, 0, 0), (0, 2, 0, 0), (1, 0, 0, 0), (2, 2, 0, 3)]) ∧
    ((sandbox.session none [(topFrames, 32), (topFrames, 32), (topFrames, 32)]).bind (fun x =>
      (sandbox.session x.1 [(topFrames, 32), (topFrames, 40)]).map (fun x => x.2.map showEvent)) =
    some [(0, 3, 0, 0), (1, 0, 0, 0), (2, 3, 0, 4), (0, 4, 0, 0), (2, 4, 0, 5)]) := by
  constructor <;> decide +kernel

/-- A world that stores every feature. -/
example : Stored (C := Unit) (fun d => ⟨fun f i => (d.frames.get f).bind (fun F => if i < F.nfeat then some ⟨0, 0, 1⟩ else none),
    fun f i => (d.frames.get f).bind (fun F => if i < F.nfeat then some () else none), fun _ => none, 3, 0⟩) := by
  intro d f F i hF hi
  simp [hF, hi]

end Verif.Sfm
