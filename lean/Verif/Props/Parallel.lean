import Verif.Lemmas.Parallel
import Verif.Props.Brightness
import Mathlib.Order.WellFounded

/-!
# C99: akaze with threads
-/

namespace Verif.Par

/-- **C99** Without races every schedule of a program with threads ends like one thread, and there is such a schedule. -/
theorem C99_schedules {σ : Type _} {p : Prog σ} (hr : p.RaceFree) (s : σ) (o : Option σ) : Exec p s o ↔ o = p.run s :=
  exec_iff hr s o

/-- **C99** No schedule goes on for ever, and none gets stuck. -/
theorem C99_ends {σ : Type _} : (¬ ∃ p : Nat → Prog σ, ∀ n, ∃ f, Next (p n) f (p (n + 1))) ∧
    ∀ p : Prog σ, p.Finished ∨ ∃ f p', Next p f p' := by
  refine ⟨?_, Prog.progress⟩
  rintro ⟨p, h⟩
  have key : ∀ n, (p n).size + n ≤ (p 0).size := by
    intro n
    induction n with
    | zero => exact le_rfl
    | succ n ih =>
      obtain ⟨f, hf⟩ := h n
      have := hf.acts.2.2
      omega
  have := key ((p 0).size + 1)
  omega

/-- Schedules matter: two closures that write to the same place end in two ways. -/
example : Exec (.par (.act (fun _ => some 1)) (.act (fun _ => some 2))) 0 (some 2) ∧
    Exec (.par (.act (fun _ => some 1)) (.act (fun _ => some 2))) 0 (some 1) :=
  ⟨.step (.parLeft (.act _)) rfl (.step (.parRight (.act _)) rfl (.finished ⟨trivial, trivial⟩)),
    .step (.parRight (.act _)) rfl (.step (.parLeft (.act _)) rfl (.finished ⟨trivial, trivial⟩))⟩

theorem mapM_bind_mapM {α β γ : Type _} (f : α → Option β) (g : β → Option γ) : ∀ l : List α,
    (l.mapM f).bind (List.mapM g) = l.mapM (fun a => (f a).bind g)
  | [] => rfl
  | a :: l => by
    rw [List.mapM_cons, List.mapM_cons, ← mapM_bind_mapM f g l]
    rcases f a with _ | b
    · rfl
    rcases l.mapM f with _ | r
    · cases h : g b <;> simp [h]
    · simp [List.mapM_cons]

theorem mapM_map_some {α β γ : Type _} (f : α → Option β) (g : β → γ) : ∀ l : List α,
    (l.mapM f).map (List.map g) = l.mapM (fun a => (f a).map g)
  | [] => rfl
  | a :: l => by
    rw [List.mapM_cons, List.mapM_cons, ← mapM_map_some f g l]
    rcases f a with _ | b
    · rfl
    rcases l.mapM f with _ | r <;> rfl

theorem mapM_of_map {α β γ : Type _} (f : β → Option γ) (g : α → β) : ∀ l : List α,
    (l.map g).mapM f = l.mapM (fun a => f (g a))
  | [] => rfl
  | a :: l => by rw [List.map_cons, List.mapM_cons, List.mapM_cons, mapM_of_map f g l]

end Verif.Par

namespace Verif.Akaze

open Verif.Par

/-- Two closures that fill in their own results. -/
theorem comm_fill {σ α β : Type _} {f : σ → Option α} {g : σ → Option β} {u : σ → α → σ} {v : σ → β → σ}
    (h1 : ∀ s b, f (v s b) = f s) (h2 : ∀ s a, g (u s a) = g s) (h3 : ∀ s a b, v (u s a) b = u (v s b) a) :
    Comm (fun s => (f s).map (u s)) (fun s => (g s).map (v s)) := by
  intro s
  simp only [Option.bind_map, Function.comp_def]
  rcases hf : f s with _ | a
  · rcases g s with _ | b
    · rfl
    · simp [h1, hf]
  · rcases hg : g s with _ | b
    · simp [h2, hg]
    · simp [h1, h2, hf, hg, h3]

theorem derivatives_raceFree (df : ℝ) : (derivativesProg df).RaceFree := by
  refine ⟨⟨trivial, trivial, ?_⟩, trivial, ⟨trivial, ⟨trivial, trivial, ?_⟩, ?_⟩, trivial⟩
  · rintro f g rfl rfl
    exact comm_fill (fun _ _ => rfl) (fun _ _ => rfl) (fun _ _ _ => rfl)
  · rintro f g rfl rfl
    exact comm_fill (fun _ _ => rfl) (fun _ _ => rfl) (fun _ _ _ => rfl)
  · rintro f g rfl (rfl | rfl)
    · exact comm_fill (fun _ _ => rfl) (fun _ _ => rfl) (fun _ _ _ => rfl)
    · exact comm_fill (fun _ _ => rfl) (fun _ _ => rfl) (fun _ _ _ => rfl)

theorem level_run (df : ℝ) (e : Evolution) :
    (((derivativesProg df).run e).bind (responseProg df).run).map Evolution.found = detLevel df e.scale := by
  simp only [derivativesProg, responseProg, Prog.run, detLevel, response, Option.bind_eq_bind, Option.pure_def]
  rcases hx : scharrHorizontal e.scale.lsmooth (edgeScale df e.scale.level.octave e.scale.level.esigma) with _ | lx
  · rfl
  simp only [Option.map_some, Option.bind_some]
  rcases hy : scharrVertical e.scale.lsmooth (edgeScale df e.scale.level.octave e.scale.level.esigma) with _ | ly
  · rfl
  simp only [Option.map_some, Option.bind_some]
  rcases scharrHorizontal lx (edgeScale df e.scale.level.octave e.scale.level.esigma) with _ | lxx
  · rfl
  simp only [Option.map_some, Option.bind_some]
  rcases scharrVertical ly (edgeScale df e.scale.level.octave e.scale.level.esigma) with _ | lyy
  · rfl
  simp only [Option.map_some, Option.bind_some]
  rcases scharrVertical lx (edgeScale df e.scale.level.octave e.scale.level.esigma) with _ | lxy
  · rfl
  simp only [Option.map_some, Option.bind_some]
  rcases detectorImage lxx lyy lxy ((edgeScale df e.scale.level.octave e.scale.level.esigma : Nat) : ℝ) with _ | d
  · rfl
  · rfl

/-- **C99** The responses with threads, for every split of the levels and every schedule, are those without. -/
theorem C99_response (df : ℝ) (scales : List Scale) (o : Option (List DetLevel)) :
    ParResponse df scales o ↔ o = scales.mapM (detLevel df) := by
  have nodup : ∀ {t : Split} {n : Nat}, t.elements = List.range n → t.elements.Nodup := fun h => h ▸ List.nodup_range
  have resp : (responseProg df).RaceFree := trivial
  have key : ∀ (evolutions : List Evolution) (t t' : Split), t.elements = List.range evolutions.length →
      t'.elements = List.range evolutions.length →
      ((Prog.seq (forEach (derivativesProg df) t) (forEach (responseProg df) t')).run evolutions).map
        (List.map Evolution.found) = (evolutions.map (fun e => e.scale)).mapM (detLevel df) := by
    intro evolutions t t' ht ht'
    have h2 : ∀ r, evolutions.mapM (derivativesProg df).run = some r →
        (forEach (responseProg df) t').run r = r.mapM (responseProg df).run := by
      intro r hr
      refine run_range _ ?_
      rw [ht']
      congr 1
      have : ∀ {l : List Evolution} {r}, l.mapM (derivativesProg df).run = some r → r.length = l.length := by
        intro l
        induction l with
        | nil => intro r h; cases h; rfl
        | cons a l ih =>
          intro r h
          rw [List.mapM_cons] at h
          simp only [Option.bind_eq_bind, Option.bind_eq_some_iff, Option.pure_def] at h
          obtain ⟨b, _, r', h', h⟩ := h
          rw [← Option.some.inj h, List.length_cons, List.length_cons, ih h']
      exact (this hr).symm
    have e : (Prog.seq (forEach (derivativesProg df) t) (forEach (responseProg df) t')).run evolutions =
        (evolutions.mapM (derivativesProg df).run).bind (List.mapM (responseProg df).run) := by
      simp only [Prog.run]
      rw [run_range _ ht]
      cases h : evolutions.mapM (derivativesProg df).run with
      | none => rfl
      | some r => exact h2 r h
    rw [e, mapM_bind_mapM, mapM_map_some, mapM_of_map]
    congr 1
    funext e
    exact level_run df e
  constructor
  · rintro ⟨t, t', evolutions, r, ht, ht', rfl, hx, rfl⟩
    rw [List.length_map] at ht ht'
    rw [hx.run ⟨raceFree_forEach (derivatives_raceFree df) (nodup ht), raceFree_forEach resp (nodup ht')⟩]
    exact key evolutions t t' ht ht'
  · rintro rfl
    have hs : (scales.map (fun s => (⟨s, s.lt, s.lt, s.lt, s.lt, s.lt, s.lt, none, none, none, none, none⟩ : Evolution))).map
        (fun e => e.scale) = scales := by
      rw [List.map_map]
      exact List.map_id _
    have hl : ∀ n, (Split.part (List.range n)).elements = List.range n := fun _ => rfl
    have race : (Prog.seq (forEach (derivativesProg df) (.part (List.range scales.length)))
        (forEach (responseProg df) (.part (List.range scales.length)))).RaceFree :=
      ⟨raceFree_forEach (derivatives_raceFree df) (nodup (hl _)), raceFree_forEach resp (nodup (hl _))⟩
    refine ⟨.part (List.range scales.length), .part (List.range scales.length), _, _, hl _, hl _, hs,
      (exec_iff race _ _).mpr rfl, ?_⟩
    rw [key _ _ _ (by rw [hl, List.length_map]) (by rw [hl, List.length_map]), hs]

/-- **C99** Filtering with threads, for every split and every schedule, gives the list of the sequential program, in its
order. -/
theorem C99_filter {α β : Type} (f : α → Option (Option β)) (l : List α) (o : Option (List β)) :
    ParFilterMap f l o ↔ o = (l.mapM f).map (fun l => l.filterMap id) := by
  have key : ∀ t : Split, t.elements = List.range l.length →
      ((forEach (.act (fun (e : α × Option (Option β)) => (f e.1).map (fun b => (e.1, some b)))) t).run
        (l.map (fun a => (a, none)))).bind
          (fun l => (l.mapM (fun (e : α × Option (Option β)) => e.2)).map (fun l => l.filterMap id)) =
        (l.mapM f).map (fun l => l.filterMap id) := by
    intro t ht
    rw [run_range _ (by rw [ht, List.length_map])]
    have : ∀ r : Option (List (α × Option (Option β))), r.bind
        (fun l => (l.mapM (fun (e : α × Option (Option β)) => e.2)).map (fun l => l.filterMap id)) =
        (r.bind (List.mapM (fun (e : α × Option (Option β)) => e.2))).map (fun l => l.filterMap id) := by
      intro r; cases r <;> rfl
    rw [this, mapM_bind_mapM, mapM_of_map]
    congr 2
    funext a
    simp only [Prog.run]
    cases f a <;> rfl
  have race : ∀ t : Split, t.elements = List.range l.length →
      (forEach (.act (fun (e : α × Option (Option β)) => (f e.1).map (fun b => (e.1, some b)))) t).RaceFree :=
    fun t ht => raceFree_forEach (p := .act (fun (e : α × Option (Option β)) => (f e.1).map (fun b => (e.1, some b))))
      trivial (ht ▸ List.nodup_range)
  constructor
  · rintro ⟨t, r, ht, hx, rfl⟩
    rw [hx.run (race t ht)]
    exact key t ht
  · rintro rfl
    exact ⟨.part (List.range l.length), _, rfl, (exec_iff (race _ rfl) _ _).mpr rfl, (key _ rfl).symm⟩

theorem after_iff {α β : Type} {a : Option α} {rest : α → Option β → Prop} {f : α → Option β} {o : Option β}
    (h : ∀ a o, rest a o ↔ o = f a) : After a rest o ↔ o = a.bind f := by
  cases a with
  | none => exact Iff.rfl
  | some a => exact h a o

theorem gradient_iff (lsmooth : Img ℝ) (r : Option (Option (Img ℝ) × Option (Img ℝ))) :
    Exec (gradientProg lsmooth) (none, none) r ↔ r = (simpleScharrHorizontal lsmooth).bind (fun x =>
      (simpleScharrVertical lsmooth).map (fun y => (some x, some y))) := by
  rw [exec_iff]
  · simp only [gradientProg, Prog.run]
    rcases simpleScharrHorizontal lsmooth with _ | x
    · rfl
    · rfl
  · refine ⟨trivial, trivial, ?_⟩
    rintro f g rfl rfl
    exact comm_fill (fun _ _ => rfl) (fun _ _ => rfl) (fun _ _ _ => rfl)

theorem later_iff : ∀ (ls : List Level) (contrast : ℝ) (octave : Nat) (before : Img ℝ) (o : Option (List Scale)),
    ParLater contrast octave before ls o ↔ o = laterScales contrast octave before ls
  | [], _, _, _, _ => Iff.rfl
  | l :: ls, contrast, octave, before, o => by
    unfold ParLater laterScales
    refine after_iff (fun start o => ?_)
    refine after_iff (fun lsmooth o => ?_)
    simp only [gradient_iff, exists_eq_left]
    rcases simpleScharrHorizontal lsmooth with _ | lx
    · exact Iff.rfl
    rcases simpleScharrVertical lsmooth with _ | ly
    · exact Iff.rfl
    change After (pmG2 lx ly _) _ o ↔ _
    refine after_iff (fun lflow o => ?_)
    refine after_iff (fun lt o => ?_)
    simp only [later_iff ls, exists_eq_left]
    rcases laterScales (if octave < l.octave then contrast * 0.75 else contrast) l.octave lt ls with _ | r
    · exact Iff.rfl
    · exact Iff.rfl

/-- **C99** The scale space with threads is the one without. -/
theorem C99_scales (c : Config) (image : Img ℝ) (o : Option (List Scale)) :
    ParScaleSpace c image o ↔ o = scaleSpace c image := by
  unfold ParScaleSpace scaleSpace
  refine after_iff (fun levels o => ?_)
  unfold createScaleSpace
  cases levels with
  | nil => exact Iff.rfl
  | cons l ls =>
    refine after_iff (fun lt o => ?_)
    refine after_iff (fun contrast o => ?_)
    simp only [later_iff, exists_eq_left]
    rcases laterScales contrast l.octave lt ls with _ | r
    · exact Iff.rfl
    · exact Iff.rfl

theorem extractDescriptors_eq (p channels : Nat) (levels : List DetLevel) : ∀ ks : List KeyPoint,
    extractDescriptors p channels levels ks = (ks.mapM (describeKeypoint p channels levels)).map (fun l => l.filterMap id)
  | [] => rfl
  | k :: ks => by
    rw [extractDescriptors, extractDescriptors_eq p channels levels ks, List.mapM_cons]
    unfold describeKeypoint
    rcases mldbDescriptor p channels levels k with (_ | _) | d
    · rfl
    · rcases ks.mapM _ with _ | r <;> rfl
    · rcases ks.mapM _ with _ | r <;> rfl

/-- **C99** Keypoints and descriptors of a picture extracted with threads are, for every split of the work and every
schedule, those extracted without; in particular there is a panic with threads exactly when there is one without. -/
theorem C99_extract (s : Settings) (sort : List KeyPoint → List KeyPoint) (image : Img ℝ)
    (o : Option (List KeyPoint × List (List (BitVec 8)))) : ParExtract s sort image o ↔ o = extract s sort image := by
  unfold ParExtract extract
  simp only [C99_scales, exists_eq_left]
  refine after_iff (fun scales o => ?_)
  simp only [C99_response, exists_eq_left]
  refine after_iff (fun levels o => ?_)
  unfold detectKeypoints subpixelRefinement
  simp only [Option.bind_eq_bind, Option.bind_assoc]
  refine after_iff (fun candidates o => ?_)
  simp only [C99_filter, exists_eq_left]
  refine after_iff (fun ks o => ?_)
  rw [extractDescriptors_eq]
  rcases List.mapM (describeKeypoint s.patternSize s.channels levels) _ with _ | r
  · exact Iff.rfl
  · exact Iff.rfl

/-- A ramp of 100 by 90 pixels with the default settings: whatever the threads do, there is the one result. -/
example {image : Img ℝ} (hs : image.Shows 100 90 (fun x _ => 3 * x)) : ∃ ks ds,
    ∀ o, ParExtract Settings.default exSort image o ↔ o = some (ks, ds) := by
  obtain ⟨k, hk, h⟩ := C78_default exSort_sorts hs.2.2.1 (by rw [hs.1]; norm_num) (by rw [hs.2.1]; norm_num)
  obtain ⟨ks, ds, e⟩ := h (ramp_contrast (by norm_num) hs (by norm_num) (by norm_num) hk)
  exact ⟨ks, ds, fun o => by rw [C99_extract, e]⟩

/-- Three elements split into one and two, the last processed first. -/
example : ParFilterMap (fun n : Nat => some (if n = 2 then none else some (n + 10))) [1, 2, 3] (some [11, 13]) :=
  (C99_filter _ _ _).mpr (by simp)

example : Split.elements (.halves (.part [0]) (.halves (.part [1]) (.part [2]))) = List.range 3 := by decide

end Verif.Akaze
