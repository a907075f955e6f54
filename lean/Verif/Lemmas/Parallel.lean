import Verif.Model.Parallel
import Mathlib.Tactic.Ring

/-!
# Lemmas: programs without races
-/

namespace Verif.Par

universe u

variable {σ : Type u}

/-- One thread. -/
def Prog.run : Prog σ → σ → Option σ
  | .done, s => some s
  | .act f, s => f s
  | .seq p q, s => (p.run s).bind q.run
  | .par p q, s => (p.run s).bind q.run

/-- The actions of a program. -/
def Prog.Acts : Prog σ → (σ → Option σ) → Prop
  | .done, _ => False
  | .act f, g => f = g
  | .seq p q, g => p.Acts g ∨ q.Acts g
  | .par p q, g => p.Acts g ∨ q.Acts g

/-- The order of both makes no difference. -/
def Comm (f g : σ → Option σ) : Prop := ∀ s, (f s).bind g = (g s).bind f

/-- Actions of closures that are joined can be exchanged. -/
def Prog.RaceFree : Prog σ → Prop
  | .done => True
  | .act _ => True
  | .seq p q => p.RaceFree ∧ q.RaceFree
  | .par p q => p.RaceFree ∧ q.RaceFree ∧ ∀ f g, p.Acts f → q.Acts g → Comm f g

def Prog.size : Prog σ → Nat
  | .done => 0
  | .act _ => 1
  | .seq p q => p.size + q.size
  | .par p q => p.size + q.size

theorem Prog.Finished.run {p : Prog σ} : p.Finished → ∀ s, p.run s = some s := by
  induction p with
  | done => intro _ s; rfl
  | act f => intro h; cases h
  | seq p q ih1 ih2 => intro h s; simp only [Prog.run, ih1 h.1, Option.bind_some, ih2 h.2]
  | par p q ih1 ih2 => intro h s; simp only [Prog.run, ih1 h.1, Option.bind_some, ih2 h.2]

theorem comm_run {p : Prog σ} {f : σ → Option σ} : (∀ g, p.Acts g → Comm f g) → Comm f p.run := by
  induction p with
  | done => intro _ s; simp [Prog.run]
  | act g => intro h; exact h g rfl
  | seq p q ih1 ih2 =>
    intro h s
    have h1 := ih1 (fun g hg => h g (Or.inl hg))
    have h2 := ih2 (fun g hg => h g (Or.inr hg))
    change (f s).bind (fun s => (p.run s).bind q.run) = ((p.run s).bind q.run).bind f
    rw [← Option.bind_assoc, h1 s, Option.bind_assoc, Option.bind_assoc]
    congr 1
    funext t
    exact h2 t
  | par p q ih1 ih2 =>
    intro h s
    have h1 := ih1 (fun g hg => h g (Or.inl hg))
    have h2 := ih2 (fun g hg => h g (Or.inr hg))
    change (f s).bind (fun s => (p.run s).bind q.run) = ((p.run s).bind q.run).bind f
    rw [← Option.bind_assoc, h1 s, Option.bind_assoc, Option.bind_assoc]
    congr 1
    funext t
    exact h2 t

theorem Next.acts {p p' : Prog σ} {f : σ → Option σ} (h : Next p f p') :
    p.Acts f ∧ (∀ g, p'.Acts g → p.Acts g) ∧ p'.size < p.size := by
  induction h with
  | act f => exact ⟨rfl, fun g (hg : False) => hg.elim, Nat.zero_lt_one⟩
  | seqLeft _ ih =>
    exact ⟨Or.inl ih.1, fun g hg => hg.elim (fun h => Or.inl (ih.2.1 g h)) Or.inr, by simp only [Prog.size]; omega⟩
  | seqRight _ _ ih => exact ⟨Or.inr ih.1, fun g hg => Or.inr (ih.2.1 g hg), by simp only [Prog.size]; omega⟩
  | parLeft _ ih =>
    exact ⟨Or.inl ih.1, fun g hg => hg.elim (fun h => Or.inl (ih.2.1 g h)) Or.inr, by simp only [Prog.size]; omega⟩
  | parRight _ ih =>
    exact ⟨Or.inr ih.1, fun g hg => hg.elim Or.inl (fun h => Or.inr (ih.2.1 g h)), by simp only [Prog.size]; omega⟩

/-- An action can be taken first. -/
theorem Next.run {p p' : Prog σ} {f : σ → Option σ} (h : Next p f p') :
    p.RaceFree → p'.RaceFree ∧ ∀ s, p.run s = (f s).bind p'.run := by
  induction h with
  | act f =>
    intro _
    refine ⟨trivial, fun s => ?_⟩
    change f s = (f s).bind some
    cases f s <;> rfl
  | seqLeft _ ih =>
    intro hr
    obtain ⟨h1, h2⟩ := ih hr.1
    refine ⟨⟨h1, hr.2⟩, fun s => ?_⟩
    simp only [Prog.run, h2, Option.bind_assoc]
  | seqRight hf _ ih =>
    intro hr
    obtain ⟨h1, h2⟩ := ih hr.2
    refine ⟨h1, fun s => ?_⟩
    simp only [Prog.run, hf.run, Option.bind_some, h2]
  | parLeft hn ih =>
    intro hr
    obtain ⟨h1, h2⟩ := ih hr.1
    refine ⟨⟨h1, hr.2.1, fun f g hf hg => hr.2.2 f g (hn.acts.2.1 f hf) hg⟩, fun s => ?_⟩
    simp only [Prog.run, h2, Option.bind_assoc]
  | @parRight p q q' f hn ih =>
    intro hr
    obtain ⟨h1, h2⟩ := ih hr.2.1
    refine ⟨⟨hr.1, h1, fun f g hf hg => hr.2.2 f g hf (hn.acts.2.1 g hg)⟩, fun s => ?_⟩
    have hc : Comm f p.run := comm_run (fun g hg => fun s => (hr.2.2 g f hg hn.acts.1 s).symm)
    change (p.run s).bind q.run = (f s).bind (fun s => (p.run s).bind q'.run)
    rw [← Option.bind_assoc, hc s, Option.bind_assoc]
    congr 1
    funext t
    exact h2 t

/-- All schedules end like the one thread. -/
theorem Exec.run {p : Prog σ} {s : σ} {o : Option σ} (h : Exec p s o) : p.RaceFree → o = p.run s := by
  induction h with
  | finished h => intro _; exact (h.run _).symm
  | step hn hf _ ih =>
    intro hr
    obtain ⟨h1, h2⟩ := hn.run hr
    rw [h2, hf, Option.bind_some, ih h1]
  | panic hn hf =>
    intro hr
    rw [(hn.run hr).2, hf]
    rfl

/-- There is always a next action. -/
theorem Prog.progress (p : Prog σ) : p.Finished ∨ ∃ f p', Next p f p' := by
  induction p with
  | done => exact Or.inl trivial
  | act f => exact Or.inr ⟨f, _, .act f⟩
  | seq p q ih1 ih2 =>
    rcases ih1 with h1 | ⟨f, p', h⟩
    · rcases ih2 with h2 | ⟨f, q', h⟩
      · exact Or.inl ⟨h1, h2⟩
      · exact Or.inr ⟨f, q', .seqRight h1 h⟩
    · exact Or.inr ⟨f, _, .seqLeft h⟩
  | par p q ih1 ih2 =>
    rcases ih1 with h1 | ⟨f, p', h⟩
    · rcases ih2 with h2 | ⟨f, q', h⟩
      · exact Or.inl ⟨h1, h2⟩
      · exact Or.inr ⟨f, _, .parRight h⟩
    · exact Or.inr ⟨f, _, .parLeft h⟩

theorem exec_exists (p : Prog σ) (s : σ) : ∃ o, Exec p s o := by
  induction hk : p.size using Nat.strong_induction_on generalizing p s with
  | _ k ih =>
    rcases p.progress with h | ⟨f, p', h⟩
    · exact ⟨_, .finished h⟩
    · cases hf : f s with
      | none => exact ⟨none, .panic h hf⟩
      | some t =>
        obtain ⟨o, ho⟩ := ih p'.size (hk ▸ h.acts.2.2) p' t rfl
        exact ⟨o, .step h hf ho⟩

/-- Without races the schedules are those with the result of one thread. -/
theorem exec_iff {p : Prog σ} (hr : p.RaceFree) (s : σ) (o : Option σ) : Exec p s o ↔ o = p.run s := by
  refine ⟨fun h => h.run hr, ?_⟩
  rintro rfl
  obtain ⟨o, ho⟩ := exec_exists p s
  rw [← ho.run hr]
  exact ho

/-! ## Lists -/

variable {ε : Type u}

theorem onElement_comm {i j : Nat} (hij : i ≠ j) (f g : ε → Option ε) : Comm (onElement i f) (onElement j g) := by
  intro l
  have key : ∀ {i j : Nat}, i ≠ j → ∀ (f g : ε → Option ε), (onElement i f l).bind (onElement j g) =
      l[i]?.bind (fun a => l[j]?.bind (fun b => (f a).bind (fun a' => (g b).bind (fun b' =>
        some ((l.set i a').set j b'))))) := by
    intro i j hij f g
    unfold onElement
    simp only [Option.bind_eq_bind, Option.bind_assoc, Option.pure_def, Option.bind_some, List.getElem?_set_ne hij]
    congr 1
    funext a
    cases l[j]? <;> cases f a <;> rfl
  rw [key hij, key hij.symm]
  rcases l[i]? with _ | a
  · cases l[j]? <;> rfl
  rcases l[j]? with _ | b
  · rfl
  simp only [Option.bind_some]
  rcases f a with _ | a'
  · cases g b <;> rfl
  rcases g b with _ | b'
  · rfl
  simp only [Option.bind_some, List.set_comm _ _ hij]

theorem onElement_comm_same {f g : ε → Option ε} (h : Comm f g) (i : Nat) : Comm (onElement i f) (onElement i g) := by
  intro l
  have key : ∀ f g : ε → Option ε, (onElement i f l).bind (onElement i g) =
      l[i]?.bind (fun a => ((f a).bind g).bind (fun a' => some (l.set i a'))) := by
    intro f g
    unfold onElement
    simp only [Option.bind_eq_bind, Option.bind_assoc, Option.pure_def, Option.bind_some]
    rcases hl : l[i]? with _ | a
    · rfl
    have hlt := (List.getElem?_eq_some_iff.mp hl).1
    simp only [Option.bind_some]
    congr 1
    funext b
    simp only [List.getElem?_set_self hlt, Option.bind_some, List.set_set]
  rw [key, key]
  congr 1
  funext a
  rw [h a]

theorem acts_at {i : Nat} {p : Prog ε} {g : List ε → Option (List ε)} : (p.at i).Acts g → ∃ f, p.Acts f ∧ g = onElement i f := by
  induction p with
  | done => intro h; cases h
  | act f => intro h; exact ⟨f, rfl, Eq.symm h⟩
  | seq p q ih1 ih2 =>
    rintro (h | h)
    · obtain ⟨f, h1, h2⟩ := ih1 h; exact ⟨f, Or.inl h1, h2⟩
    · obtain ⟨f, h1, h2⟩ := ih2 h; exact ⟨f, Or.inr h1, h2⟩
  | par p q ih1 ih2 =>
    rintro (h | h)
    · obtain ⟨f, h1, h2⟩ := ih1 h; exact ⟨f, Or.inl h1, h2⟩
    · obtain ⟨f, h1, h2⟩ := ih2 h; exact ⟨f, Or.inr h1, h2⟩

theorem raceFree_at {i : Nat} {p : Prog ε} : p.RaceFree → (p.at i).RaceFree := by
  induction p with
  | done => exact id
  | act f => exact id
  | seq p q ih1 ih2 => exact fun h => ⟨ih1 h.1, ih2 h.2⟩
  | par p q ih1 ih2 =>
    refine fun h => ⟨ih1 h.1, ih2 h.2.1, fun f g hf hg => ?_⟩
    obtain ⟨f', hf', rfl⟩ := acts_at hf
    obtain ⟨g', hg', rfl⟩ := acts_at hg
    exact onElement_comm_same (h.2.2 _ _ hf' hg') i

theorem run_at (i : Nat) (p : Prog ε) {l : List ε} (hi : i < l.length) : (p.at i).run l = onElement i p.run l := by
  have two : ∀ (p q : Prog ε) (l : List ε), i < l.length → (onElement i p.run l).bind (fun l => onElement i q.run l) =
      onElement i (fun s => (p.run s).bind q.run) l := by
    intro p q l hi
    unfold onElement
    simp only [Option.bind_eq_bind, Option.bind_assoc, Option.pure_def, Option.bind_some, List.getElem?_eq_getElem hi,
      List.getElem?_set_self hi, List.set_set]
  have len : ∀ (p : Prog ε) (l l' : List ε), onElement i p.run l = some l' → l'.length = l.length := by
    intro p l l' h
    unfold onElement at h
    simp only [Option.bind_eq_bind, Option.bind_eq_some_iff, Option.pure_def] at h
    obtain ⟨_, _, _, _, h⟩ := h
    rw [← Option.some.inj h, List.length_set]
  induction p generalizing l with
  | done =>
    simp only [Prog.at, Prog.run, onElement, List.getElem?_eq_getElem hi, Option.bind_eq_bind, Option.bind_some,
      Option.pure_def, List.set_getElem_self]
  | act f => rfl
  | seq p q ih1 ih2 =>
    change ((p.at i).run l).bind (q.at i).run = _
    rw [ih1 hi]
    refine Eq.trans ?_ (two p q l hi)
    cases h : onElement i p.run l with
    | none => rfl
    | some l' => exact ih2 (by rw [len p l l' h]; exact hi)
  | par p q ih1 ih2 =>
    change ((p.at i).run l).bind (q.at i).run = _
    rw [ih1 hi]
    refine Eq.trans ?_ (two p q l hi)
    cases h : onElement i p.run l with
    | none => rfl
    | some l' => exact ih2 (by rw [len p l l' h]; exact hi)

theorem acts_forEach {p : Prog ε} {t : Split} {g : List ε → Option (List ε)} :
    (forEach p t).Acts g → ∃ i ∈ t.elements, ∃ f, g = onElement i f := by
  induction t with
  | part l =>
    simp only [forEach, Split.elements]
    induction l with
    | nil => intro h; cases h
    | cons i l ih =>
      rintro (h | h)
      · obtain ⟨f, -, e⟩ := acts_at h
        exact ⟨i, List.mem_cons_self, f, e⟩
      · obtain ⟨j, hj, h⟩ := ih h
        exact ⟨j, List.mem_cons_of_mem _ hj, h⟩
  | halves l r ih1 ih2 =>
    rintro (h | h)
    · obtain ⟨i, hi, h⟩ := ih1 h; exact ⟨i, List.mem_append_left _ hi, h⟩
    · obtain ⟨i, hi, h⟩ := ih2 h; exact ⟨i, List.mem_append_right _ hi, h⟩

theorem raceFree_forEach {p : Prog ε} (hp : p.RaceFree) {t : Split} : t.elements.Nodup → (forEach p t).RaceFree := by
  induction t with
  | part l =>
    intro h
    clear h
    simp only [forEach]
    induction l with
    | nil => trivial
    | cons i l ih => exact ⟨raceFree_at hp, ih⟩
  | halves l r ih1 ih2 =>
    intro h
    rw [Split.elements, List.nodup_append] at h
    refine ⟨ih1 h.1, ih2 h.2.1, fun f g hf hg => ?_⟩
    obtain ⟨i, hi, f', rfl⟩ := acts_forEach hf
    obtain ⟨j, hj, g', rfl⟩ := acts_forEach hg
    exact onElement_comm (h.2.2 i hi j hj) f' g'

theorem run_forEach (p : Prog ε) (t : Split) : ∀ l, (forEach p t).run l = t.elements.foldlM (fun l i => (p.at i).run l) l := by
  induction t with
  | part l =>
    simp only [forEach, Split.elements]
    induction l with
    | nil => intro l; rfl
    | cons i is ih =>
      intro l
      simp only [List.foldr_cons, Prog.run, List.foldlM_cons]
      congr 1
      funext l
      exact ih l
  | halves a b ih1 ih2 =>
    intro l
    simp only [forEach, Prog.run, Split.elements, List.foldlM_append, ih1]
    congr 1
    funext l
    exact ih2 l

theorem foldlM_range' (p : Prog ε) : ∀ (l pre : List ε),
    (List.range' pre.length l.length).foldlM (fun l i => (p.at i).run l) (pre ++ l) = (l.mapM p.run).map (fun r => pre ++ r)
  | [], pre => by simp
  | a :: l, pre => by
    rw [List.length_cons, List.range'_succ, List.foldlM_cons, run_at _ _ (by simp), List.mapM_cons]
    unfold onElement
    rw [List.getElem?_append_right le_rfl, Nat.sub_self, List.getElem?_cons_zero]
    simp only [Option.bind_eq_bind, Option.bind_some, Option.bind_assoc, Option.pure_def]
    rcases p.run a with _ | a'
    · rfl
    simp only [Option.bind_some]
    have e : (pre ++ a :: l).set pre.length a' = (pre ++ [a']) ++ l := by
      rw [List.set_append_right _ _ le_rfl]
      simp
    have ih := foldlM_range' p l (pre ++ [a'])
    rw [List.length_append, List.length_singleton] at ih
    rw [e, ih]
    rcases l.mapM p.run with _ | r
    · rfl
    · simp

/-- A parallel iterator gives what the sequential one gives. -/
theorem run_range (p : Prog ε) {t : Split} {l : List ε} (ht : t.elements = List.range l.length) :
    (forEach p t).run l = l.mapM p.run := by
  rw [run_forEach, ht, List.range_eq_range']
  have := foldlM_range' p l []
  simpa using this

end Verif.Par
