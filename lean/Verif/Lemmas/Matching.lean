import Verif.Model.Matching

/-!
# Lemmas about matching
-/

namespace Verif.Sfm

theorem matchOne_total {k : Nat} {ans : List (Nat × Nat)} (h : 2 ≤ ans.length) :
    ∃ m, matchOne k ans = some m := by
  match ans, h with
  | (i, d) :: (j, d') :: _, _ => exact ⟨_, rfl⟩

theorem matchAll_spec (k : Nat) (knn : Nat → List (Nat × Nat)) (as : List Nat)
    (h : ∀ a, a ∈ as → 2 ≤ (knn a).length) :
    ∃ ms, matchAll k knn as = some ms ∧ ms.length = as.length ∧
      ∀ (i a : Nat), as[i]? = some a → ∃ m, ms[i]? = some m ∧ matchOne k (knn a) = some m := by
  induction as with
  | nil => exact ⟨[], rfl, rfl, by simp⟩
  | cons a as ih =>
    obtain ⟨m, hm⟩ := matchOne_total (k := k) (h a (by simp))
    obtain ⟨ms, h1, h2, h3⟩ := ih (fun x hx => h x (List.mem_cons_of_mem _ hx))
    refine ⟨m :: ms, by simp only [matchAll, hm, h1], by simp [h2], ?_⟩
    intro i x hi
    cases i with
    | zero => simp at hi; subst hi; exact ⟨m, rfl, hm⟩
    | succ i => exact h3 i x (by simpa using hi)

/-- the matches of feature `a` -/
theorem matching_spec {na nb k : Nat} {knn : Nat → List (Nat × Nat)}
    (h : ∀ a, a < na → 2 ≤ na → 2 ≤ nb → 2 ≤ (knn a).length) :
    ∃ ms, matching na nb k knn = some ms ∧ (2 ≤ na → 2 ≤ nb → ms.length = na) ∧
      ∀ a b : Nat, ms[a]? = some (some b) ↔
        2 ≤ na ∧ 2 ≤ nb ∧ a < na ∧ matchOne k (knn a) = some (some b) := by
  unfold matching
  split
  · rename_i hlt
    refine ⟨[], rfl, by omega, ?_⟩
    intro a b
    simp
    omega
  · rename_i hge
    obtain ⟨ms, h1, h2, h3⟩ := matchAll_spec k knn (List.range na)
      (fun a ha => h a (List.mem_range.mp ha) (by omega) (by omega))
    refine ⟨ms, h1, by simp [h2], ?_⟩
    intro a b
    constructor
    · intro hm
      have hlt : a < na := by
        have := (List.getElem?_eq_some_iff.mp hm).1
        simp [h2] at this
        exact this
      obtain ⟨m, e1, e2⟩ := h3 a a (by simp [hlt])
      rw [hm] at e1
      cases e1
      exact ⟨by omega, by omega, hlt, e2⟩
    · rintro ⟨_, _, hlt, e⟩
      obtain ⟨m, e1, e2⟩ := h3 a a (by simp [hlt])
      rw [e] at e2
      cases e2
      exact e1

theorem keepSymmetric_spec (rev : List (Option Nat)) (ms : List (Option Nat)) : ∀ a0,
    (∀ b, some b ∈ ms → b < rev.length) →
    ∃ ps, keepSymmetric rev a0 ms = some ps ∧
      (∀ a b : Nat, (a, b) ∈ ps ↔ a0 ≤ a ∧ ms[a - a0]? = some (some b) ∧ rev[b]? = some (some a)) ∧
      ps.Pairwise (fun p q => p.1 < q.1) := by
  induction ms with
  | nil => intro a0 _; exact ⟨[], rfl, by simp, .nil⟩
  | cons m ms ih =>
    intro a0 h
    obtain ⟨ps, h1, h2, h3⟩ := ih (a0 + 1) (fun b hb => h b (List.mem_cons_of_mem _ hb))
    have hidx : ∀ a, a0 < a → (m :: ms)[a - a0]? = ms[a - (a0 + 1)]? := by
      intro a ha
      have : a - a0 = (a - (a0 + 1)) + 1 := by omega
      rw [this, List.getElem?_cons_succ]
    cases m with
    | none =>
      refine ⟨ps, by simp only [keepSymmetric, h1], ?_, h3⟩
      intro a b
      rw [h2]
      constructor
      · rintro ⟨ha, e1, e2⟩
        exact ⟨by omega, by rw [hidx a (by omega)]; exact e1, e2⟩
      · rintro ⟨ha, e1, e2⟩
        by_cases haa : a = a0
        · subst haa; simp at e1
        · exact ⟨by omega, by rw [← hidx a (by omega)]; exact e1, e2⟩
    | some c =>
      have hcl : c < rev.length := h c (by simp)
      have hc : rev[c]? = some rev[c] := List.getElem?_eq_getElem hcl
      by_cases hr : rev[c] = some a0
      · refine ⟨(a0, c) :: ps, by simp only [keepSymmetric, h1, hc, if_pos hr], ?_, ?_⟩
        · intro a b
          rw [List.mem_cons, h2]
          constructor
          · rintro (e | ⟨ha, e1, e2⟩)
            · cases e
              exact ⟨Nat.le_refl _, by simp, by rw [hc, hr]⟩
            · exact ⟨by omega, by rw [hidx a (by omega)]; exact e1, e2⟩
          · rintro ⟨ha, e1, e2⟩
            by_cases haa : a = a0
            · subst haa
              simp at e1
              exact Or.inl (by rw [e1])
            · exact Or.inr ⟨by omega, by rw [← hidx a (by omega)]; exact e1, e2⟩
        · refine List.pairwise_cons.mpr ⟨?_, h3⟩
          rintro ⟨a, b⟩ hm
          have := ((h2 a b).mp hm).1
          show a0 < a
          omega
      · refine ⟨ps, by simp only [keepSymmetric, h1, hc, if_neg hr], ?_, h3⟩
        intro a b
        rw [h2]
        constructor
        · rintro ⟨ha, e1, e2⟩
          exact ⟨by omega, by rw [hidx a (by omega)]; exact e1, e2⟩
        · rintro ⟨ha, e1, e2⟩
          by_cases haa : a = a0
          · subst haa
            simp at e1
            subst e1
            rw [hc] at e2
            exact absurd (Option.some.inj e2) hr
          · exact ⟨by omega, by rw [← hidx a (by omega)]; exact e1, e2⟩

theorem symmetric_spec {na nb k : Nat} {ab ba : Nat → List (Nat × Nat)}
    (hab : ∀ a, a < na → 2 ≤ na → 2 ≤ nb → 2 ≤ (ab a).length)
    (hab' : ∀ a i d, a < na → (i, d) ∈ ab a → i < nb)
    (hba : ∀ b, b < nb → 2 ≤ nb → 2 ≤ na → 2 ≤ (ba b).length) :
    ∃ ps, symmetricMatching na nb k ab ba = some ps ∧ ps.Pairwise (fun p q => p.1 < q.1) ∧
      ∀ a b, (a, b) ∈ ps ↔ 2 ≤ na ∧ 2 ≤ nb ∧ a < na ∧ b < nb ∧
        matchOne k (ab a) = some (some b) ∧ matchOne k (ba b) = some (some a) := by
  obtain ⟨f, f1, f2, f3⟩ := matching_spec (k := k) hab
  obtain ⟨r, r1, r2, r3⟩ := matching_spec (k := k) hba
  have hin : ∀ a b, a < na → matchOne k (ab a) = some (some b) → b < nb := by
    intro a b ha hm
    unfold matchOne at hm
    split at hm
    · rename_i i d j d' rest he
      simp only [Option.some.injEq, Option.ite_none_right_eq_some] at hm
      obtain ⟨_, rfl⟩ := hm
      exact hab' a i d ha (by rw [he]; simp)
    · cases hm
  have hrange : ∀ b, some b ∈ f → b < r.length := by
    intro b hb
    obtain ⟨a, ha⟩ := List.getElem?_of_mem hb
    obtain ⟨h1, h2, h3, h4⟩ := (f3 a b).mp ha
    rw [r2 h2 h1]
    exact hin a b h3 h4
  obtain ⟨ps, p1, p2, p3⟩ := keepSymmetric_spec r f 0 hrange
  refine ⟨ps, by simp only [symmetricMatching, f1, r1, p1], p3, ?_⟩
  intro a b
  rw [p2, f3, r3]
  simp only [Nat.zero_le, true_and, Nat.sub_zero]
  constructor
  · rintro ⟨⟨h1, h2, h3, h4⟩, _, _, h5, h6⟩
    exact ⟨h1, h2, h3, h5, h4, h6⟩
  · rintro ⟨h1, h2, h3, h4, h5, h6⟩
    exact ⟨⟨h1, h2, h3, h5⟩, h2, h1, h4, h6⟩

end Verif.Sfm
