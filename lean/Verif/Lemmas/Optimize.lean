import Verif.Spec.Optimize
import Verif.Lemmas.Pose
import Verif.Lemmas.Triangulate
import Verif.Lemmas.LambdaTwist

/-!
# The loop of the optimisers
-/

namespace Verif.Geo

section
variable {P : Type} {sizes : P → List ℝ} {update : P → Option P}

theorem optimizeLoop_fixed {p : P} (h : update p = some p) (n : Nat) (bests : List (Option ℝ))
    (idle : Nat) : optimizeLoop sizes update n bests idle p = some p := by
  induction n generalizing bests idle with
  | zero => rfl
  | succ n ih =>
    rw [optimizeLoop]
    generalize (if (List.zipWith track bests (sizes p)).any (fun x => x.2) then 0 else idle + 1) = i
    split
    · rfl
    · rw [h, Option.bind_some, ih]

theorem optimizeLoop_induct {I : Nat → P → Prop} (hI : ∀ k p q, I k p → update p = some q → I (k + 1) q)
    {n : Nat} {bests : List (Option ℝ)} {idle k : Nat} {p q : P} (hp : I k p)
    (h : optimizeLoop sizes update n bests idle p = some q) : ∃ m, k ≤ m ∧ m ≤ k + n ∧ I m q := by
  induction n generalizing bests idle k p with
  | zero =>
    obtain rfl := Option.some.inj h
    exact ⟨k, le_rfl, le_rfl, hp⟩
  | succ n ih =>
    rw [optimizeLoop] at h
    generalize (if (List.zipWith track bests (sizes p)).any (fun x => x.2) then 0 else idle + 1) = i at h
    split at h
    · obtain rfl := Option.some.inj h
      exact ⟨k, le_rfl, Nat.le_add_right _ _, hp⟩
    · rw [Option.bind_eq_some_iff] at h
      obtain ⟨r, h1, h2⟩ := h
      obtain ⟨m, h3, h4, h5⟩ := ih (hI k p r hp h1) h2
      exact ⟨m, by omega, by omega, h5⟩

/-- The best value of entry `i` before step `m`. -/
def IsBest (hist : Nat → List ℝ) (m i : Nat) : Option ℝ → Prop
  | none => m = 0
  | some b => (∃ j < m, (hist j)[i]? = some b) ∧ ∀ j < m, ∀ u, (hist j)[i]? = some u → b ≤ u

theorem track_isBest {hist : Nat → List ℝ} {m i : Nat} {b : Option ℝ} {t : ℝ} (hb : IsBest hist m i b)
    (ht : (hist m)[i]? = some t) : IsBest hist (m + 1) i (track b t).1 ∧
      ((track b t).2 = true ↔ ∀ j < m, ∀ u, (hist j)[i]? = some u → t < u) := by
  cases b with
  | none =>
    have hb : m = 0 := hb
    subst hb
    refine ⟨⟨⟨0, Nat.zero_lt_one, ht⟩, fun j hj u hu => ?_⟩, ?_⟩
    · obtain rfl : j = 0 := by omega
      rw [ht] at hu
      exact (Option.some.inj hu).le
    · simp [track]
  | some b =>
    obtain ⟨⟨j0, hj0, hb0⟩, hle⟩ := hb
    unfold track
    by_cases hlt : t < b
    · simp only [if_pos hlt]
      refine ⟨⟨⟨m, Nat.lt_succ_self m, ht⟩, fun j hj u hu => ?_⟩, ?_⟩
      · rcases Nat.lt_or_ge j m with h | h
        · exact hlt.le.trans (hle j h u hu)
        · obtain rfl : j = m := by omega
          rw [ht] at hu
          exact (Option.some.inj hu).le
      · exact ⟨fun _ j hj u hu => lt_of_lt_of_le hlt (hle j hj u hu), fun _ => trivial⟩
    · simp only [if_neg hlt]
      refine ⟨⟨⟨j0, by omega, hb0⟩, fun j hj u hu => ?_⟩, ?_⟩
      · rcases Nat.lt_or_ge j m with h | h
        · exact hle j h u hu
        · obtain rfl : j = m := by omega
          rw [ht] at hu
          rw [← Option.some.inj hu]
          exact not_lt.mp hlt
      · exact ⟨fun h => absurd h Bool.false_ne_true, fun h => absurd (h j0 hj0 b hb0) hlt⟩

/-- All best values before step `m`. -/
def AllBest (hist : Nat → List ℝ) (m : Nat) (bests : List (Option ℝ)) : Prop :=
  bests.length = (hist m).length ∧ ∀ i b, bests[i]? = some b → IsBest hist m i b

theorem track_all {hist : Nat → List ℝ} {m : Nat} {bests : List (Option ℝ)}
    (hl : (hist (m + 1)).length = (hist m).length) (hb : AllBest hist m bests) :
    AllBest hist (m + 1) ((List.zipWith track bests (hist m)).map (fun x => x.1)) ∧
    ((List.zipWith track bests (hist m)).any (fun x => x.2) = true ↔ ¬ NoProgress hist m) := by
  obtain ⟨hlen, hb⟩ := hb
  constructor
  · constructor
    · simp [hlen, hl]
    · intro i b h
      rw [List.getElem?_map, Option.map_eq_some_iff] at h
      obtain ⟨x, hx, rfl⟩ := h
      rw [List.getElem?_zipWith] at hx
      cases h1 : bests[i]? with
      | none => simp [h1] at hx
      | some c =>
        cases h2 : (hist m)[i]? with
        | none => simp [h1, h2] at hx
        | some t =>
          simp only [h1, h2, Option.some.injEq] at hx
          subst hx
          exact (track_isBest (hb i c h1) h2).1
  · rw [List.any_eq_true]
    constructor
    · rintro ⟨x, hx, hx2⟩ hno
      obtain ⟨i, hi⟩ := List.mem_iff_getElem?.mp hx
      rw [List.getElem?_zipWith] at hi
      cases h1 : bests[i]? with
      | none => simp [h1] at hi
      | some c =>
        cases h2 : (hist m)[i]? with
        | none => simp [h1, h2] at hi
        | some t =>
          simp only [h1, h2, Option.some.injEq] at hi
          subst hi
          obtain ⟨j, hj, u, hu, hle⟩ := hno i t h2
          exact absurd (((track_isBest (hb i c h1) h2).2.mp hx2) j hj u hu) (not_lt.mpr hle)
    · intro h
      unfold NoProgress at h
      push Not at h
      obtain ⟨i, t, hi, hlt⟩ := h
      have hib : i < bests.length := by
        rw [hlen]
        exact (List.getElem?_eq_some_iff.mp hi).1
      refine ⟨track bests[i] t, List.mem_iff_getElem?.mpr ⟨i, ?_⟩, ?_⟩
      · rw [List.getElem?_zipWith, List.getElem?_eq_getElem hib, hi]
      · exact (track_isBest (hb i _ (List.getElem?_eq_getElem hib)) hi).2.mpr
          (fun j hj u hu => hlt j hj u hu)

/-- The loop from step `m` of a history: it stops at the first stalled step or after `n` more. -/
theorem optimizeLoop_from {seq : Nat → P} (hseq : ∀ k, update (seq k) = some (seq (k + 1)))
    (hlen : ∀ k, (sizes (seq (k + 1))).length = (sizes (seq k)).length)
    (n m idle : Nat) (bests : List (Option ℝ)) (hb : AllBest (fun k => sizes (seq k)) m bests)
    (hi : idle < 50) (hle : idle ≤ m)
    (hno : ∀ d < idle, NoProgress (fun k => sizes (seq k)) (m - 1 - d))
    (hyes : idle < m → ¬ NoProgress (fun k => sizes (seq k)) (m - 1 - idle)) :
    ∃ k, m ≤ k ∧ k ≤ m + n ∧ optimizeLoop sizes update n bests idle (seq m) = some (seq k) ∧
      (∀ j, m ≤ j → j < k → ¬ Stalled (fun k => sizes (seq k)) j) ∧
      (k < m + n → Stalled (fun k => sizes (seq k)) k) := by
  induction n generalizing m idle bests with
  | zero => exact ⟨m, le_rfl, le_rfl, rfl, fun j h1 h2 => by omega, fun h => by omega⟩
  | succ n ih =>
    obtain ⟨hb', hany⟩ := track_all (hlen m) hb
    rw [optimizeLoop]
    by_cases hp : NoProgress (fun k => sizes (seq k)) m
    · have hf : (List.zipWith track bests (sizes (seq m))).any (fun x => x.2) = false := by
        cases h : (List.zipWith track bests (sizes (seq m))).any (fun x => x.2) with
        | false => rfl
        | true => exact absurd hp (hany.mp h)
      simp only [hf, Bool.false_eq_true, if_false]
      have hno' : ∀ d < idle + 1, NoProgress (fun k => sizes (seq k)) (m - d) := by
        intro d hd
        cases d with
        | zero => exact hp
        | succ d =>
          have := hno d (by omega)
          rwa [show m - 1 - d = m - (d + 1) by omega] at this
      by_cases h50 : 50 ≤ idle + 1
      · simp only [if_pos h50]
        refine ⟨m, le_rfl, by omega, rfl, fun j h1 h2 => by omega, fun _ d hd => ⟨by omega, ?_⟩⟩
        exact hno' d (by omega)
      · simp only [if_neg h50]
        rw [hseq m, Option.bind_some]
        have hns : ¬ Stalled (fun k => sizes (seq k)) m := by
          intro hs
          obtain ⟨h1, h2⟩ := hs (idle + 1) (by omega)
          refine hyes (by omega) ?_
          rwa [show m - (idle + 1) = m - 1 - idle by omega] at h2
        obtain ⟨k, h1, h2, h3, h4, h5⟩ := ih (m + 1) (idle + 1) _ hb' (by omega) (by omega)
          (fun d hd => by simpa using hno' d hd)
          (fun h => by
            have := hyes (by omega)
            rwa [show m - 1 - idle = m + 1 - 1 - (idle + 1) by omega] at this)
        refine ⟨k, by omega, by omega, h3, fun j hj1 hj2 => ?_, fun h => h5 (by omega)⟩
        rcases Nat.lt_or_ge m j with h | h
        · exact h4 j h hj2
        · obtain rfl : j = m := by omega
          exact hns
    · have hf : (List.zipWith track bests (sizes (seq m))).any (fun x => x.2) = true := hany.mpr hp
      simp only [hf, if_true, show ¬ (50 ≤ 0) by omega, if_false]
      rw [hseq m, Option.bind_some]
      have hns : ¬ Stalled (fun k => sizes (seq k)) m := fun hs => hp (hs 0 (by omega)).2
      obtain ⟨k, h1, h2, h3, h4, h5⟩ := ih (m + 1) 0 _ hb' (by omega) (by omega)
        (fun d hd => by omega) (fun _ => by simpa using hp)
      refine ⟨k, by omega, by omega, h3, fun j hj1 hj2 => ?_, fun h => h5 (by omega)⟩
      rcases Nat.lt_or_ge m j with h | h
      · exact h4 j h hj2
      · obtain rfl : j = m := by omega
        exact hns

/-- The loop from the start. -/
theorem optimizeLoop_start {seq : Nat → P} (hseq : ∀ k, update (seq k) = some (seq (k + 1))) (l : Nat)
    (hlen : ∀ p, (sizes p).length = l) (n : Nat) :
    ∃ k ≤ n, optimizeLoop sizes update n (List.replicate l none) 0 (seq 0) = some (seq k) ∧
      (∀ j < k, ¬ Stalled (fun k => sizes (seq k)) j) ∧
      (k < n → Stalled (fun k => sizes (seq k)) k) := by
  obtain ⟨k, _, h2, h3, h4, h5⟩ := optimizeLoop_from (sizes := sizes) hseq
    (fun k => by rw [hlen, hlen]) n 0 0 (List.replicate l none)
    ⟨by simp [hlen], fun i b h => by
      have := List.mem_of_getElem? h
      rw [List.mem_replicate] at this
      rw [this.2]
      rfl⟩ (by omega) le_rfl (fun d hd => by omega) (fun h => by omega)
  exact ⟨k, by omega, h3, fun j hj => h4 j (Nat.zero_le _) hj, fun h => h5 (by omega)⟩

theorem stalled_fifty {hist : Nat → List ℝ} {k : Nat} (hn : ∀ k, hist k ≠ []) (h : Stalled hist k) :
    50 ≤ k := by
  obtain ⟨h1, h2⟩ := h 49 (by omega)
  by_contra hk
  rw [show k - 49 = 0 by omega] at h2
  cases hh : hist 0 with
  | nil => exact hn 0 hh
  | cons t l =>
    obtain ⟨j, hj, _⟩ := h2 0 t (by rw [hh]; rfl)
    omega

end

theorem isometry_zero : Tangent.zero.isometry = Iso.one := by
  unfold Tangent.isometry Tangent.zero
  rw [expRot_zero]
  lin3

theorem Tangent.isometry_rigid (d : Tangent) : d.isometry.Rigid := expRot_isRot _

theorem sum_zero {gs : List Tangent} (h : ∀ g ∈ gs, g = Tangent.zero) :
    Tangent.sum gs = Tangent.zero := by
  have hz : Tangent.zero.add Tangent.zero = Tangent.zero := by
    unfold Tangent.add Tangent.zero
    congr 1 <;> lin3
  unfold Tangent.sum
  induction gs with
  | nil => rfl
  | cons g gs ih =>
    rw [List.foldl_cons, h g List.mem_cons_self, hz]
    exact ih (fun g hg => h g (List.mem_cons_of_mem _ hg))

theorem scale_zero (s : ℝ) : Tangent.zero.scale s = Tangent.zero := by
  unfold Tangent.scale Tangent.zero
  congr 1 <;> lin3

theorem scaleTranslation_zero (s : ℝ) : Tangent.zero.scaleTranslation s = Tangent.zero := by
  unfold Tangent.scaleTranslation Tangent.zero
  congr 1
  lin3

theorem scaleRotation_zero (s : ℝ) : Tangent.zero.scaleRotation s = Tangent.zero := by
  unfold Tangent.scaleRotation Tangent.zero
  congr 1
  lin3

theorem l1_zero : Tangent.zero.l1 = Tangent.zero := by
  have : (V3.zero : V3 ℝ).normalize = none := by
    unfold V3.normalize
    rw [if_pos (V3.norm_eq_zero.mpr rfl)]
  unfold Tangent.l1 Tangent.zero
  simp only [this]
  rfl

/-- Equal weights have a finite harmonic sum, as soon as there is one. -/
theorem harmonic_const {ws : List ℝ} {c : ℝ} (h : ∀ w ∈ ws, w = c) (hne : ws ≠ []) :
    ∃ s, harmonic ws = some s := by
  unfold harmonic
  by_cases h0 : (0 : ℝ) ∈ ws
  · exact ⟨0, by rw [if_pos h0]⟩
  · rw [if_neg h0]
    have hc : c ≠ 0 := by
      rintro rfl
      obtain ⟨w, l, rfl⟩ := List.exists_cons_of_ne_nil hne
      exact h0 (by rw [← h w List.mem_cons_self]; exact List.mem_cons_self)
    have hs : (ws.map (fun w => 1 / w)).sum = ws.length * (1 / c) := by
      clear hne h0
      induction ws with
      | nil => simp
      | cons w l ih =>
        rw [List.map_cons, List.sum_cons, ih (fun w hw => h w (List.mem_cons_of_mem _ hw)),
          h w List.mem_cons_self, List.length_cons]
        push_cast
        ring
    have hl : (ws.length : ℝ) ≠ 0 := by
      rw [Nat.cast_ne_zero]
      exact fun h => hne (List.length_eq_zero_iff.mp h)
    refine ⟨_, P3P.cdiv_of_ne ?_⟩
    rw [hs]
    exact mul_ne_zero hl (one_div_ne_zero hc)

/-- Zero gradients give a zero step. -/
theorem stepL1_zero {gs : List Tangent} (h : ∀ g ∈ gs, g = Tangent.zero) (hne : gs ≠ [])
    (tscale eps rate : ℝ) : stepL1 tscale eps rate gs = some Tangent.zero := by
  have hn : (V3.zero : V3 ℝ).norm = 0 := V3.norm_eq_zero.mpr rfl
  obtain ⟨s, hs⟩ := harmonic_const (ws := gs.map (fun g => g.translation.norm + tscale * eps))
    (c := tscale * eps) (by
      intro w hw
      obtain ⟨g, hg, rfl⟩ := List.mem_map.mp hw
      rw [h g hg]
      simp [Tangent.zero, hn]) (by simpa using hne)
  obtain ⟨r, hr⟩ := harmonic_const (ws := gs.map (fun g => g.rotation.norm + eps)) (c := eps) (by
      intro w hw
      obtain ⟨g, hg, rfl⟩ := List.mem_map.mp hw
      rw [h g hg]
      simp [Tangent.zero, hn]) (by simpa using hne)
  unfold stepL1
  rw [hs, hr, sum_zero]
  · change some _ = some _
    rw [scale_zero, scaleTranslation_zero, scaleRotation_zero]
  · intro g hg
    obtain ⟨g', hg', rfl⟩ := List.mem_map.mp hg
    rw [h g' hg', l1_zero]

end Verif.Geo
