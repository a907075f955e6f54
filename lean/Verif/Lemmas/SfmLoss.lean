import Verif.Spec.SfmLoss
import Verif.Props.SfmFilter
import Verif.Lemmas.SfmStartGeo
import Verif.Lemmas.EpipolarPlane
import Verif.Lemmas.SfmDedup

/-! Helper lemmas: the loss of an observation. -/

namespace Verif.Sfm

open Verif.Geo

variable {C : Type} {W : World C} {R : Recon (Iso ℝ)}

/-! ## Ranks -/

theorem rank_le_iff {α : Type} [LinearOrder α] (key : Nat → α) {n f g : Nat} (hg : g < n) :
    ((List.range n).filter (fun h => decide (key h < key f))).length ≤
      ((List.range n).filter (fun h => decide (key h < key g))).length ↔ key f ≤ key g := by
  have mono : ∀ a b, key a ≤ key b → ((List.range n).filter (fun h => decide (key h < key a))).Sublist
      ((List.range n).filter (fun h => decide (key h < key b))) := by
    intro a b hab
    apply List.monotone_filter_right
    intro h hh
    simp only [decide_eq_true_eq] at hh ⊢
    exact lt_of_lt_of_le hh hab
  constructor
  · intro h
    by_contra hlt
    push Not at hlt
    have hs := mono g f hlt.le
    have he := hs.eq_of_length_le h
    have hm : g ∈ (List.range n).filter (fun h => decide (key h < key f)) := by
      rw [List.mem_filter]
      exact ⟨List.mem_range.mpr hg, decide_eq_true hlt⟩
    rw [← he, List.mem_filter] at hm
    exact absurd (of_decide_eq_true hm.2) (lt_irrefl _)
  · intro h
    exact (mono f g h).length_le

theorem lossKey_le_iff (high : Bool) (x y : Option ℝ) : lossKey high x ≤ lossKey high y ↔ NotWorse high x y := by
  cases x <;> cases y <;> cases high <;> simp [lossKey, NotWorse]

/-! ## Values -/

theorem misfit_of {pbs : List (Iso ℝ × V3 ℝ)} {obs : List (Nat × Nat)} {o : Nat × Nat} {c : Iso ℝ × V3 ℝ}
    (hs : SeenAs W R obs pbs) (ho : SeenAs W R [o] [c]) (hne : obs ≠ []) :
    ∃ x, (match (motive := List (Iso ℝ × V3 ℝ) → Option (Option ℝ)) pbs with
      | [] => none
      | [_] => some (some 2)
      | [a, b] => some (some (pairLoss a b))
      | _ =>
        match W.triangulate pbs with
        | none => some (some 2)
        | some p => some (cosineDistance p c)) = some x ∧ Misfit W R obs o x := by
  have hlen := hs.length_eq
  match pbs, hs with
  | [], hs =>
    cases hs
    exact absurd rfl hne
  | [_], hs => exact ⟨_, rfl, .single (by simpa using hlen)⟩
  | [a, b], hs =>
    refine ⟨_, rfl, ?_⟩
    simp only [pairLoss, Real.cos_arcsin]
    exact .pair hs rfl
  | a :: b :: e :: pbs, hs =>
    have h3 : 3 ≤ obs.length := by
      rw [hlen]
      simp
    simp only
    cases ht : W.triangulate (a :: b :: e :: pbs) with
    | none => exact ⟨_, rfl, .lost h3 hs ht⟩
    | some p =>
      refine ⟨_, rfl, ?_⟩
      unfold cosineDistance
      cases hq : transform c.1 p with
      | none => exact .nowhere h3 hs ht ho hq
      | some q => exact .far h3 hs ht ho hq

theorem seenAs_unique {obs : List (Nat × Nat)} {p q : List (Iso ℝ × V3 ℝ)} (hp : SeenAs W R obs p)
    (hq : SeenAs W R obs q) : p = q := by
  rw [seenAs_iff] at hp hq
  rw [hp] at hq
  exact Option.some.inj hq

theorem seenAs_mem {obs : List (Nat × Nat)} {pbs : List (Iso ℝ × V3 ℝ)} (h : SeenAs W R obs pbs) {o : Nat × Nat}
    (ho : o ∈ obs) : ∃ c ∈ pbs, SeenAs W R [o] [c] := by
  unfold SeenAs at h ⊢
  induction h with
  | nil => cases ho
  | cons h _ ih =>
    rcases List.mem_cons.mp ho with rfl | ho
    · exact ⟨_, List.mem_cons_self, .cons h .nil⟩
    · obtain ⟨c, h1, h2⟩ := ih ho
      exact ⟨c, List.mem_cons_of_mem _ h1, h2⟩

theorem Misfit.unique {obs : List (Nat × Nat)} {o : Nat × Nat} {x y : Option ℝ} (hx : Misfit W R obs o x)
    (hy : Misfit W R obs o y) : x = y := by
  have two : ∀ {a b : Iso ℝ × V3 ℝ}, SeenAs W R obs [a, b] → obs.length = 2 := fun h => h.length_eq
  cases hx with
  | single h1 =>
    cases hy with
    | single => rfl
    | pair h _ => have := two h; omega
    | lost h => omega
    | far h => omega
    | nowhere h => omega
  | pair h1 e1 =>
    have h2 := two h1
    cases hy with
    | single => omega
    | pair h e =>
      have := seenAs_unique h1 h
      simp only [List.cons.injEq, and_true] at this
      obtain ⟨rfl, rfl⟩ := this
      rw [e1, e]
    | lost h => omega
    | far h => omega
    | nowhere h => omega
  | lost h3 hs ht =>
    cases hy with
    | single => rfl
    | pair h _ => have := two h; omega
    | lost => rfl
    | far _ hs' ht' => rw [seenAs_unique hs hs', ht'] at ht; cases ht
    | nowhere _ hs' ht' => rw [seenAs_unique hs hs', ht'] at ht; cases ht
  | far h3 hs ht ho hq =>
    cases hy with
    | single => omega
    | pair h _ => have := two h; omega
    | lost _ hs' ht' => rw [seenAs_unique hs hs', ht'] at ht; cases ht
    | far _ hs' ht' ho' hq' =>
      rw [seenAs_unique hs hs', ht'] at ht
      cases ht
      have := seenAs_unique ho ho'
      simp only [List.cons.injEq, and_true] at this
      subst this
      rw [hq] at hq'
      cases hq'
      rfl
    | nowhere _ hs' ht' ho' hq' =>
      rw [seenAs_unique hs hs', ht'] at ht
      cases ht
      have := seenAs_unique ho ho'
      simp only [List.cons.injEq, and_true] at this
      subst this
      rw [hq] at hq'
      cases hq'
  | nowhere h3 hs ht ho hq =>
    cases hy with
    | single => omega
    | pair h _ => have := two h; omega
    | lost _ hs' ht' => rw [seenAs_unique hs hs', ht'] at ht; cases ht
    | far _ hs' ht' ho' hq' =>
      rw [seenAs_unique hs hs', ht'] at ht
      cases ht
      have := seenAs_unique ho ho'
      simp only [List.cons.injEq, and_true] at this
      subst this
      rw [hq] at hq'
      cases hq'
    | nowhere => rfl

/-- The loss of an observation of a landmark. -/
theorem observationLoss_some (hR : R.Consistent) (hb : BearingsComplete W R) {l v f : Nat} {L : Landmark}
    (hL : R.landmarks.get l = some L) (ha : R.Assigned v f l) :
    ∃ x, observationLoss W R v f = some x ∧ Misfit W R L.entries (v, f) x := by
  obtain ⟨V, hV, hl⟩ := ha
  obtain ⟨b, hbv⟩ := hb v V f hV (List.getElem?_eq_some_iff.1 hl).1
  obtain ⟨_, pbs, hp⟩ := bearings_of_complete hR hb hL
  have ho : poseBearing W R (v, f) = some (V.pose, b) := by
    unfold poseBearing
    simp only [hV, Option.bind_eq_bind, Option.bind_some, hbv]
    rfl
  have hs : SeenAs W R L.entries pbs := (seenAs_iff ..).mpr hp
  have ho' : SeenAs W R [(v, f)] [(V.pose, b)] := .cons ⟨V, hV, rfl, hbv⟩ .nil
  have hne : L.entries ≠ [] := by
    intro e
    obtain ⟨w, k, h⟩ := hR.nonempty l L hL
    unfold FMap.get at h
    rw [e] at h
    simp at h
  obtain ⟨x, h1, h2⟩ := misfit_of hs ho' hne
  refine ⟨x, ?_, h2⟩
  unfold observationLoss
  simp only [hV, hl, ho, hL, hp, Option.bind_eq_bind, Option.bind_some]
  exact h1

/-- Comparing ranks is comparing losses. -/
theorem lossRank_le_iff (hR : R.Consistent) (hb : BearingsComplete W R) (high : Bool) {a b v f g : Nat}
    {A B : Landmark} (hA : R.landmarks.get a = some A) (hB : R.landmarks.get b = some B) (hf : R.Assigned v f a)
    (hg : R.Assigned v g b) {x y : Option ℝ} (hx : Misfit W R A.entries (v, f) x) (hy : Misfit W R B.entries (v, g) y) :
    lossRank W high R v f ≤ lossRank W high R v g ↔ NotWorse high x y := by
  obtain ⟨x', h1, h2⟩ := observationLoss_some hR hb hA hf
  obtain ⟨y', h3, h4⟩ := observationLoss_some hR hb hB hg
  rw [h2.unique hx] at h1
  rw [h4.unique hy] at h3
  obtain ⟨V, hV, hl⟩ := hf
  obtain ⟨V', hV', hl'⟩ := hg
  rw [hV] at hV'
  cases hV'
  unfold lossRank
  simp only [hV]
  rw [rank_le_iff (fun g => lossKey high ((observationLoss W R v g).getD none))
    (List.getElem?_eq_some_iff.1 hl').1, h1, h3]
  exact lossKey_le_iff high x y

/-- Losses are between 0 and 2. -/
theorem misfit_range (hu : UnitBearings W) {obs : List (Nat × Nat)} {o : Nat × Nat} {x : ℝ}
    (h : Misfit W R obs o (some x)) : 0 ≤ x ∧ x ≤ 2 := by
  generalize e : some x = y at h
  cases h with
  | single => cases e; norm_num
  | @pair a b t hs es =>
    cases e
    have h0 := Real.sqrt_nonneg (1 - t ^ 2)
    have h1 : Real.sqrt (1 - t ^ 2) ≤ 1 := Real.sqrt_le_one.mpr (by nlinarith [sq_nonneg t])
    constructor <;> linarith
  | lost => cases e; norm_num
  | @far pbs p q c _ _ _ ho hq =>
    cases e
    have hc : c.2.normSq = 1 := by
      obtain ⟨V, _, _, h⟩ := (List.forall₂_cons.mp ho).1
      exact hu _ _ _ h
    have := abs_le.mp (abs_dot_le ((C33_from_homogeneous _).2 q hq).1 hc)
    constructor <;> linarith
  | nowhere => cases e

theorem misfit_centre {obs : List (Nat × Nat)} {o : Nat × Nat} (ho : o ∈ obs) (hn : NeverCentre W.triangulate) :
    ¬ Misfit W R obs o none := by
  intro h
  generalize e : (none : Option ℝ) = y at h
  cases h with
  | single => cases e
  | pair => cases e
  | lost => cases e
  | far => cases e
  | @nowhere pbs p c h3 hs ht hc hq =>
    have hm : c ∈ pbs := by
      obtain ⟨c', h1, h2⟩ := seenAs_mem hs ho
      have := seenAs_unique hc h2
      simp only [List.cons.injEq, and_true] at this
      rw [this]
      exact h1
    exact hn pbs p ht c hm hq

/-! ## Exact observations -/

/-- Two cameras that look at one point from different directions, at most 90 degrees apart. -/
theorem pair_exact {a b : Iso ℝ × V3 ℝ} {x : V3 ℝ} (ha : a.1.Rigid) (hb : b.1.Rigid) (la : Looks a.1 a.2 x)
    (lb : Looks b.1 b.2 x) (hc : (a.1.inv.rot.mulVec a.2).cross (b.1.inv.rot.mulVec b.2) ≠ V3.zero)
    (hd : 0 ≤ (a.1.inv.rot.mulVec a.2).dot (b.1.inv.rot.mulVec b.2)) :
    epipolarLoss (b.1.mul a.1.inv).t ((b.1.mul a.1.inv).rot.mulVec a.2) b.2 = 0 := by
  have hB : b.1.rot.IsRot := hb
  set m := b.1.mul a.1.inv with hm
  have e1 : m.rot.mulVec a.2 = b.1.rot.mulVec (a.1.inv.rot.mulVec a.2) := by
    rw [M3.mulVec_mulVec]
    rfl
  have e2 : b.2 = b.1.rot.mulVec (b.1.inv.rot.mulVec b.2) := by
    rw [M3.mulVec_mulVec]
    change b.2 = (b.1.rot.mul b.1.rot.transpose).mulVec b.2
    rw [hB.orth', M3.one_mulVec]
  have hdot : 0 ≤ (m.rot.mulVec a.2).dot b.2 := by
    rw [e1, e2, hB.dot_mulVec]
    exact hd
  obtain ⟨_, r, hr, ea⟩ := la
  obtain ⟨_, s, hs, eb⟩ := lb
  have hpt : m.point (a.1.point x) = b.1.point x := by
    rw [hm, Iso.point_mul, ← Iso.point_mul a.1.inv, ha.inv_mul]
    lin3
  rw [ea, eb] at hpt
  have ht : m.t = (V3.smul s b.2).sub (V3.smul r (m.rot.mulVec a.2)) := by
    rw [← hpt]
    lin3
  have hcr : (m.rot.mulVec a.2).cross b.2 ≠ V3.zero := by
    intro h
    rw [e1, e2, hB.cross_mulVec] at h
    apply hc
    have := congrArg (b.1.rot.transpose.mulVec) h
    rw [M3.mulVec_mulVec, hB.orth, M3.one_mulVec] at this
    rw [this]
    lin3
  rw [C53_loss_zero_iff hdot, ht]
  generalize m.rot.mulVec a.2 = u at *
  refine ⟨by simp only [lin]; ring, Or.inl ?_⟩
  intro h
  apply hcr
  have e : u.cross ((V3.smul s b.2).sub (V3.smul r u)) = V3.smul s (u.cross b.2) := by lin3
  rw [e] at h
  have := congrArg (V3.smul (1 / s)) h
  have e3 : V3.smul (1 / s) (V3.smul s (u.cross b.2)) = u.cross b.2 := by
    have h1 : 1 / s * s = 1 := by field_simp
    have : ∀ w : V3 ℝ, V3.smul (1 / s) (V3.smul s w) = V3.smul (1 / s * s) w := by intro w; lin3
    rw [this, h1]
    lin3
  rw [e3] at this
  rw [this]
  lin3

theorem misfit_exact (hfind : CompleteTriangulator W.triangulate) {obs : List (Nat × Nat)} {x : V3 ℝ}
    (h : ShowsExactly W R obs x) {o : Nat × Nat} (ho : o ∈ obs) : Misfit W R obs o (some 0) := by
  obtain ⟨pbs, hs, he, h2, h3⟩ := h
  have hlen := hs.length_eq
  obtain ⟨q, hq, q', hq', hc⟩ := he.across
  have hself : ∀ w : V3 ℝ, w.cross w = V3.zero := by intro w; lin3
  match pbs, hs with
  | [], _ => cases hq
  | [c], _ =>
    rw [List.mem_singleton] at hq hq'
    subst hq hq'
    exact absurd (hself _) hc
  | [a, b], hs =>
    have hab : (a.1.inv.rot.mulVec a.2).cross (b.1.inv.rot.mulVec b.2) ≠ V3.zero := by
      intro h0
      apply hc
      simp only [List.mem_cons, List.not_mem_nil, or_false] at hq hq'
      rcases hq with rfl | rfl <;> rcases hq' with rfl | rfl
      · exact hself _
      · exact h0
      · have : (q.1.inv.rot.mulVec q.2).cross (q'.1.inv.rot.mulVec q'.2) =
            ((q'.1.inv.rot.mulVec q'.2).cross (q.1.inv.rot.mulVec q.2)).neg := by
          generalize q.1.inv.rot.mulVec q.2 = u
          generalize q'.1.inv.rot.mulVec q'.2 = w
          lin3
        rw [this, h0]
        lin3
      · exact hself _
    have hz := pair_exact (he.rigid a (by simp)) (he.rigid b (by simp)) (he.looks a (by simp)) (he.looks b (by simp)) hab
      (h2 (by simpa using hlen) a (by simp) b (by simp))
    have : (0 : ℝ) = 1 - Real.sqrt (1 - (0 : ℝ) ^ 2) := by norm_num
    rw [this]
    exact .pair hs hz.symm
  | a :: b :: e :: pbs, hs =>
    have hl : 3 ≤ obs.length := by
      rw [hlen]
      simp
    obtain ⟨p, p1, _, p3⟩ := fromPoint_some he.origin
    have ht := hfind _ _ he (h3 hl)
    rw [p1] at ht
    obtain ⟨c, hcm, hoc⟩ := seenAs_mem hs ho
    have hz := cosine_exact p1 p3 (he.looks c hcm)
    unfold cosineDistance at hz
    obtain ⟨z, hz, e0⟩ := Option.map_eq_some_iff.mp hz
    rw [← e0]
    exact .far hl hs ht hoc hz

/-! ## The first landmark wins -/

theorem seenAs_refines {R' : Recon (Iso ℝ)} (h : R.Refines R') {obs : List (Nat × Nat)} {pbs : List (Iso ℝ × V3 ℝ)} :
    SeenAs W R' obs pbs ↔ SeenAs W R obs pbs := by
  rw [seenAs_iff, seenAs_iff, mapM_refines h]

namespace Recon

/-- A landmark whose losses are never larger keeps all its observations. -/
theorem dedupLoop_first {P : Type} (loss : Recon P → Nat → Nat → Nat) {a b : Nat} (hab : a ≠ b)
    (ds : List (Nat × Nat × Nat)) : ∀ {R : Recon P} {A B : Landmark} {ok : Bool}, R.Consistent →
    R.landmarks.get a = some A → R.landmarks.get b = some B → (ds.map Prod.fst).Nodup →
    (∀ v f g, (v, f, g) ∈ ds → A.get v = some f ∧ B.get v = some g) →
    (∀ Q, Refines R Q → Q.landmarks.get a = some A → ∀ v f g, (v, f, g) ∈ ds → Q.Assigned v g b →
      loss Q v f ≤ loss Q v g) →
    ∀ {R' : Recon P} {ok' : Bool}, dedupLoop loss ds R ok = some (R', ok') → R'.landmarks.get a = some A := by
  induction ds with
  | nil =>
    intro R A B ok _ hA _ _ _ _ R' ok' h
    cases h
    exact hA
  | cons e ds ih =>
    obtain ⟨v, f, g⟩ := e
    intro R A B ok hR hA hB hnd hmem hl R' ok' h
    simp only [List.map_cons, List.nodup_cons] at hnd
    obtain ⟨hvn, hnd⟩ := hnd
    obtain ⟨hAv, hBv⟩ := hmem v f g (by simp)
    have hb : R.Assigned v g b := (hR.agree v g b).mpr ⟨B, hB, hBv⟩
    have haL : a < R.landmarks.next := hR.landmarksWF.fresh _ _ hA
    have hle := hl R (Refines.refl hR) hA v f g (by simp) hb
    unfold dedupLoop worstOf at h
    rw [if_pos hle] at h
    by_cases h2 : 2 ≤ B.size
    · obtain ⟨R1, h1, hr, _, hold, hoth, _⟩ := split_assigned hR hb hB h2
      rw [h1] at h
      refine ih hr.cons ((hoth a hab (by omega)).trans hA) hold hnd ?_ ?_ h
      · intro w x y hm
        obtain ⟨m1, m2⟩ := hmem w x y (List.mem_cons_of_mem _ hm)
        have hw : w ≠ v := by
          rintro rfl
          exact hvn (List.mem_map.mpr ⟨_, hm, rfl⟩)
        refine ⟨m1, ?_⟩
        rw [FMap.get_erase]
        simp [hw, m2]
      · intro Q hQ hQA w x y hm ha
        exact hl Q (hr.trans hQ) hQA w x y (List.mem_cons_of_mem _ hm) ha
    · rw [(splitObservation_spec hR hb hB).1 (by omega)] at h
      exact ih hR hA hB hnd (fun w x y hm => hmem w x y (List.mem_cons_of_mem _ hm))
        (fun Q hQ hQA w x y hm => hl Q hQ hQA w x y (List.mem_cons_of_mem _ hm)) h

end Recon

end Verif.Sfm
