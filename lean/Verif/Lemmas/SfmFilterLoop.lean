import Verif.Lemmas.SfmFilter

/-! Helper lemmas: the loops of the filters. -/

namespace Verif.Sfm

open Verif.Geo

variable {P : Type} {C : Type}

namespace Recon

/-- A loop over landmarks. -/
def loopOver (F : Recon P → Nat → Option (Recon P)) : List Nat → Recon P → Option (Recon P)
  | [], R => some R
  | l :: ls, R =>
    match F R l with
    | none => none
    | some R1 => loopOver F ls R1

theorem filterLandmarks_eq (ω : Oracle P) (ls : List Nat) (R : Recon P) :
    filterLandmarks ω ls R = loopOver (fun R l => R.filterLandmark ω l) ls R := by
  induction ls generalizing R with
  | nil => rfl
  | cons l ls ih =>
    simp only [filterLandmarks, loopOver]
    cases R.filterLandmark ω l with
    | none => rfl
    | some R1 => exact ih R1

/-- One step of `splitNonRobust`. -/
def splitStep (ω : Oracle P) (R : Recon P) (l : Nat) : Option (Recon P) :=
  match R.landmarks.get l with
  | none => none
  | some L => if ω.triangulates R l then some R else R.splitLandmark L.entries

theorem splitNonRobust_eq (ω : Oracle P) (ls : List Nat) (R : Recon P) :
    splitNonRobust ω ls R = loopOver (splitStep ω) ls R := by
  induction ls generalizing R with
  | nil => rfl
  | cons l ls ih =>
    simp only [splitNonRobust, loopOver, splitStep]
    cases R.landmarks.get l with
    | none => rfl
    | some L =>
      by_cases h : ω.triangulates R l
      · simp only [h, if_true]; exact ih R
      · simp only [h]
        simp only [Bool.false_eq_true, if_false]
        cases R.splitLandmark L.entries with
        | none => rfl
        | some R1 => exact ih R1

/-- The observations kept in one landmark. -/
def Keeps (L L' : Landmark) (keep : Nat × Nat → Prop) : Prop :=
  ((∃ o ∈ L.entries, keep o) → ∀ o, o ∈ L'.entries ↔ o ∈ L.entries ∧ keep o) ∧
    ((¬ ∃ o ∈ L.entries, keep o) → ∃ o ∈ L.entries, L'.entries = [o])

theorem loopOver_ok {F : Recon P → Nat → Option (Recon P)} {R : Recon P} {keep : Landmark → Nat × Nat → Prop}
    (hF : ∀ Q l L, R.Refines Q → Q.landmarks.get l = some L → R.landmarks.get l = some L →
      ∃ Q' L' es, F Q l = some Q' ∧ SplitOff Q Q' l L L' es ∧ Keeps L L' (keep L)) (ls : List Nat) :
    ∀ {Q : Recon P}, R.Refines Q → ls.Nodup → (∀ l ∈ ls, Q.landmarks.get l = R.landmarks.get l ∧ R.LiveLandmark l) →
    ∃ Q', loopOver F ls Q = some Q' ∧ Q.Refines Q' ∧
      (∀ l ∈ ls, ∀ L, R.landmarks.get l = some L → ∃ L', Q'.landmarks.get l = some L' ∧ Keeps L L' (keep L) ∧
        ∀ o ∈ L.entries, o ∉ L'.entries → ∃ m, Q.landmarks.next ≤ m ∧ Q'.landmarks.get m = some ⟨[o]⟩) ∧
      (∀ c, c ∉ ls → c < Q.landmarks.next → Q'.landmarks.get c = Q.landmarks.get c) ∧
      (∀ m M, Q.landmarks.next ≤ m → Q'.landmarks.get m = some M → ∃ l L o, R.landmarks.get l = some L ∧
        o ∈ L.entries ∧ M.entries = [o]) := by
  induction ls with
  | nil =>
    intro Q hQ _ _
    refine ⟨Q, rfl, Refines.refl hQ.cons, by simp, fun _ _ _ => rfl, ?_⟩
    intro m M hm hM
    have := hQ.cons.landmarksWF.fresh _ _ hM
    omega
  | cons l ls ih =>
    intro Q hQ hnd hls
    rw [List.nodup_cons] at hnd
    obtain ⟨hl, L, hL⟩ := hls l (by simp)
    have hQL : Q.landmarks.get l = some L := hl.trans hL
    have hlt := hQ.cons.landmarksWF.fresh _ _ hQL
    obtain ⟨Q1, L1, es, h1, h2, h3⟩ := hF Q l L hQ hQL hL
    obtain ⟨Q', h4, h5, h6, h7, h8⟩ := ih (hQ.trans h2.refines) hnd.2 (by
      intro l' hl'
      obtain ⟨h, L', hL'⟩ := hls l' (List.mem_cons_of_mem _ hl')
      refine ⟨?_, L', hL'⟩
      rw [h2.others l' (fun e => hnd.1 (e ▸ hl')), h]
      exact hQ.cons.landmarksWF.fresh _ _ (h.trans hL'))
    have hn := h2.refines.lnext
    refine ⟨Q', by simp only [loopOver, h1, h4], h2.refines.trans h5, ?_, ?_, ?_⟩
    · intro l' hl' L' hL'
      rcases List.mem_cons.1 hl' with rfl | hl'
      · rw [hL] at hL'
        cases hL'
        refine ⟨L1, ?_, h3, ?_⟩
        · rw [h7 _ hnd.1 (by omega)]; exact h2.kept
        · intro o ho hno
          obtain ⟨m, hm, hM⟩ := h2.off o ho hno
          refine ⟨m, hm, ?_⟩
          rw [h7 m ?_ (h2.refines.cons.landmarksWF.fresh _ _ hM)]
          · exact hM
          · intro hmem
            obtain ⟨h, L', hL'⟩ := hls m (List.mem_cons_of_mem _ hmem)
            have := hQ.cons.landmarksWF.fresh _ _ (h.trans hL')
            omega
      · obtain ⟨L'', k1, k2, k3⟩ := h6 l' hl' L' hL'
        refine ⟨L'', k1, k2, ?_⟩
        intro o ho hno
        obtain ⟨m, hm, hM⟩ := k3 o ho hno
        exact ⟨m, by omega, hM⟩
    · intro c hc hlt
      rw [List.mem_cons, not_or] at hc
      rw [h7 c hc.2 (by omega)]
      exact h2.others c hc.1 hlt
    · intro m M hm hM
      by_cases h : m < Q1.landmarks.next
      · by_cases hmem : m ∈ ls
        · obtain ⟨h, L', hL'⟩ := hls m (List.mem_cons_of_mem _ hmem)
          have := hQ.cons.landmarksWF.fresh _ _ (h.trans hL')
          omega
        · rw [h7 m hmem h] at hM
          obtain ⟨o, ho, hE⟩ := h2.fresh m M hm hM
          exact ⟨l, L, o, hL, ho, hE⟩
      · exact h8 m M (by omega) hM

end Recon

theorem loop_sorted {F : Recon (Iso ℝ) → Nat → Option (Recon (Iso ℝ))} {R : Recon (Iso ℝ)} (hR : R.Consistent)
    {keep : Landmark → Nat × Nat → Prop}
    (hF : ∀ Q l L, R.Refines Q → Q.landmarks.get l = some L → R.landmarks.get l = some L →
      ∃ Q' L' es, F Q l = some Q' ∧ Recon.SplitOff Q Q' l L L' es ∧ Recon.Keeps L L' (keep L)) :
    ∃ R', Recon.loopOver F R.landmarks.keys R = some R' ∧ R.Refines R' ∧ Sorted R R' keep := by
  have hkeys : ∀ l, l ∈ R.landmarks.keys ↔ R.LiveLandmark l := SlotMap.mem_keys_iff R.landmarks
  obtain ⟨R', h1, h2, h3, _, h5⟩ := Recon.loopOver_ok hF R.landmarks.keys (Recon.Refines.refl hR)
    hR.landmarksWF.nodup (fun l hl => ⟨rfl, (hkeys l).1 hl⟩)
  have hnone : ∀ m, R.landmarks.next ≤ m → R.landmarks.get m = none := by
    intro m hm
    cases hM : R.landmarks.get m with
    | none => rfl
    | some M => have := hR.landmarksWF.fresh _ _ hM; omega
  refine ⟨R', h1, h2, ⟨?_, ?_, h2.views, h2.constraints⟩⟩
  · intro l L hL
    obtain ⟨L', k1, k2, k3⟩ := h3 l ((hkeys l).2 ⟨L, hL⟩) L hL
    refine ⟨L', k1, k2.1, k2.2, ?_⟩
    intro o ho hno
    obtain ⟨m, hm, hM⟩ := k3 o ho hno
    exact ⟨m, hnone m hm, hM⟩
  · intro m M hm hM
    by_cases h : m < R.landmarks.next
    · -- a landmark that is not live and below the counter stays away
      obtain ⟨v, f, hg⟩ := h2.cons.nonempty m M hM
      have ha := (h2.cons.agree v f m).2 ⟨M, hM, hg⟩
      obtain ⟨L, hL⟩ := Recon.assigned_live hR (h2.old m v f h ha)
      rw [hm] at hL; cases hL
    · exact h5 m M (by omega) hM

/-! ## The tests of the filters -/

section Tests

variable (W : World C) (lim : Limits)

theorem tooFar_of {R : Recon (Iso ℝ)} {p : V4 ℝ} {o : Nat × Nat} {pb : Iso ℝ × V3 ℝ}
    (h : poseBearing W R o = some pb) : ∃ x, tooFar W lim R p o = some x ∧ (x = true ↔ FarFrom lim p pb) := by
  unfold tooFar FarFrom
  rw [h]
  simp only [Option.bind_eq_bind, Option.bind_some]
  unfold cosineDistance
  cases transform pb.1 p with
  | none => exact ⟨false, rfl, by simp⟩
  | some q =>
    refine ⟨_, rfl, ?_⟩
    simp

theorem mapM_length {α β : Type _} {f : α → Option β} {l : List α} {r : List β} (h : l.mapM f = some r) :
    r.length = l.length := by
  induction l generalizing r with
  | nil => cases h; rfl
  | cons a l ih =>
    simp only [List.mapM_cons, Option.bind_eq_bind, Option.bind_eq_some_iff] at h
    obtain ⟨b, _, s, h2, h3⟩ := h
    cases h3
    simp [ih h2]

theorem mapM_mem {α β : Type _} {f : α → Option β} {l : List α} {r : List β} (h : l.mapM f = some r) {a : α}
    (ha : a ∈ l) : ∃ b ∈ r, f a = some b := by
  induction l generalizing r with
  | nil => simp at ha
  | cons x l ih =>
    simp only [List.mapM_cons, Option.bind_eq_bind, Option.bind_eq_some_iff] at h
    obtain ⟨b, h1, s, h2, h3⟩ := h
    cases h3
    rcases List.mem_cons.1 ha with rfl | ha
    · exact ⟨b, by simp, h1⟩
    · obtain ⟨c, hc, h4⟩ := ih h2 ha
      exact ⟨c, List.mem_cons_of_mem _ hc, h4⟩

theorem filterStep_geo (ω : Oracle (Iso ℝ)) {R : Recon (Iso ℝ)}
    (hb : ∀ l L, R.landmarks.get l = some L → ∃ pbs, L.entries.mapM (poseBearing W R) = some pbs) (Q : Recon (Iso ℝ))
    (l : Nat) (L : Landmark) (hQ : R.Refines Q) (hL : Q.landmarks.get l = some L) (hRL : R.landmarks.get l = some L) :
    ∃ Q' L' es, Q.filterLandmark (geoOracle W lim ω) l = some Q' ∧ Recon.SplitOff Q Q' l L L' es ∧
      Recon.Keeps L L' (Fits W lim R L.entries) := by
  obtain ⟨pbs, hpbs⟩ := hb l L hRL
  have hlen := mapM_length hpbs
  have hne := Recon.entries_ne_nil hQ.cons hL
  have hnd := Recon.nodup_entries (hQ.cons.obsWF l L hL)
  have hpQ : L.entries.mapM (poseBearing W Q) = some pbs := (mapM_refines hQ W _).trans hpbs
  have hself := Recon.SplitOff.refl hQ.cons hL
  have keepAll : (∀ o ∈ L.entries, Fits W lim R L.entries o) → Recon.Keeps L L (Fits W lim R L.entries) := by
    intro hall
    refine ⟨fun _ o => ⟨fun ho => ⟨ho, hall o ho⟩, fun ho => ho.1⟩, fun hn => ?_⟩
    obtain ⟨o, ho⟩ := List.exists_mem_of_ne_nil _ hne
    exact absurd ⟨o, ho, hall o ho⟩ hn
  have splitCase : (∀ o ∈ L.entries, ¬ Fits W lim R L.entries o) →
      ∃ Q' L' es, Q.splitLandmark L.entries = some Q' ∧ Recon.SplitOff Q Q' l L L' es ∧
        Recon.Keeps L L' (Fits W lim R L.entries) := by
    intro hall
    obtain ⟨Q', L', h1, es, h2, h3⟩ := Recon.SplitOff.landmark hQ.cons hL
    exact ⟨Q', L', es, h1, h2, fun ⟨o, ho, hf⟩ => absurd hf (hall o ho), fun _ => h3⟩
  unfold Recon.filterLandmark
  simp only [hL]
  split
  · rename_i hE; exact absurd hE hne
  · rename_i e hE
    exact ⟨Q, L, [], rfl, hself, keepAll (fun o _ => Or.inl (by rw [hE]; rfl))⟩
  · rename_i e₁ e₂ hE
    obtain ⟨a, b, rfl⟩ : ∃ a b, pbs = [a, b] := by
      rw [hE] at hlen
      match pbs, hlen with
      | [a, b], _ => exact ⟨a, b, rfl⟩
    have ht : twoViewTest W lim Q l = some (biLandmarkRobust (b.1.mul a.1.inv) a.2 b.2 lim.maxSine) := by
      unfold twoViewTest
      rw [hL]
      simp only [Option.bind_eq_bind, Option.bind_some, hpQ]
      rfl
    have hf : ∀ o, Fits W lim R L.entries o ↔ Meet lim a b := by
      intro o
      unfold Fits
      rw [hE]
      constructor
      · rintro (h | ⟨a', b', h1, h2⟩ | ⟨h, _⟩)
        · simp at h
        · rw [seenAs_iff, ← hE, hpbs] at h1
          cases h1; exact h2
        · simp at h
      · intro h
        exact Or.inr (Or.inl ⟨a, b, (seenAs_iff ..).2 (hE ▸ hpbs), h⟩)
    have hg : (geoOracle W lim ω).biRobust Q l = biLandmarkRobust (b.1.mul a.1.inv) a.2 b.2 lim.maxSine := by
      simp only [geoOracle, ht, Option.getD_some]
    rw [hg]
    by_cases hm : Meet lim a b
    · rw [if_pos (by unfold biLandmarkRobust; rw [decide_eq_true_eq]; exact hm)]
      exact ⟨Q, L, [], rfl, hself, keepAll (fun o _ => (hf o).2 hm)⟩
    · rw [if_neg (by unfold biLandmarkRobust; rw [decide_eq_true_eq]; exact hm), ← hE]
      exact splitCase (fun o _ h => hm ((hf o).1 h))
  · rename_i h0 h1 h2
    have h3 : 3 ≤ L.entries.length := by
      match hE : L.entries with
      | [] => exact absurd hE hne
      | [e] => exact absurd hE (h1 e)
      | [e₁, e₂] => exact absurd hE (h2 e₁ e₂)
      | _ :: _ :: _ :: _ => simp
    have ht : triangulateLandmark W Q l = some (W.triangulate pbs) := by
      unfold triangulateLandmark
      rw [hL]
      simp only [Option.bind_eq_bind, Option.bind_some, hpQ]
      rw [if_pos (by omega)]
      rfl
    have hg : (geoOracle W lim ω).disagrees Q l =
        (W.triangulate pbs).map (fun p v f => (tooFar W lim Q p (v, f)).getD false) := by
      simp only [geoOracle, ht, Option.getD_some]
    rw [hg]
    cases htri : W.triangulate pbs with
    | none =>
      simp only [Option.map_none]
      refine splitCase ?_
      rintro o _ (h | ⟨a, b, h, _⟩ | ⟨_, r, p, pb, h4, h5, _⟩)
      · omega
      · rw [seenAs_iff] at h
        have := mapM_length h
        simp at this; omega
      · rw [seenAs_iff, hpbs] at h4
        cases h4
        rw [htri] at h5; cases h5
    | some p =>
      simp only [Option.map_some]
      have hbad : ∀ o ∈ L.entries, ((tooFar W lim Q p (o.1, o.2)).getD false = true ↔ ¬ Fits W lim R L.entries o) := by
        intro o ho
        obtain ⟨pb, _, hpb⟩ := mapM_mem hpbs ho
        obtain ⟨x, hx, hx'⟩ := tooFar_of W lim (R := Q) (p := p) (o := (o.1, o.2)) ((poseBearing_refines hQ W o).trans hpb)
        rw [hx, Option.getD_some, hx']
        constructor
        · rintro hfar (h | ⟨a, b, h, _⟩ | ⟨_, r, p', pb', h4, h5, h6, h7⟩)
          · omega
          · rw [seenAs_iff] at h
            have := mapM_length h
            simp at this; omega
          · rw [seenAs_iff, hpbs] at h4
            cases h4
            rw [htri] at h5; cases h5
            have hs := (seenAs_iff W R [o] [pb]).2 (by simp only [List.mapM_cons, hpb]; rfl)
            rw [seenAs_iff] at h6 hs
            rw [h6] at hs; cases hs
            exact h7 hfar
        · intro hn
          by_contra hfar
          exact hn (Or.inr (Or.inr ⟨h3, pbs, p, pb, (seenAs_iff ..).2 hpbs, htri,
            (seenAs_iff ..).2 (by simp only [List.mapM_cons, hpb]; rfl), hfar⟩))
      obtain ⟨Q', L', h4, h5⟩ := Recon.splitAll_exact
        (L.entries.filter (fun e => (tooFar W lim Q p (e.1, e.2)).getD false)) hQ.cons hL (hnd.filter _)
        (fun e he => (List.mem_filter.1 he).1)
      refine ⟨Q', L', _, h4, h5, ?_, ?_⟩
      · rintro ⟨o, ho, hfit⟩ o'
        rw [h5.rest]
        · rw [List.mem_filter, and_congr_right_iff]
          intro ho'
          rw [hbad o' ho']
          constructor
          · intro h; by_contra hn; exact h ⟨ho', hn⟩
          · rintro h ⟨_, hn⟩; exact hn h
        · refine List.length_filter_lt_length_iff_exists.2 ⟨o, ho, ?_⟩
          rw [hbad o ho]; exact fun h => h hfit
      · intro hn
        refine h5.all ?_
        rw [List.length_filter_eq_length_iff]
        intro o ho
        rw [hbad o ho]
        exact fun h => hn ⟨o, ho, h⟩

theorem splitStep_geo (ω : Oracle (Iso ℝ)) {R : Recon (Iso ℝ)} (hR : R.Consistent)
    (hb : ∀ l L, R.landmarks.get l = some L → ∃ pbs, L.entries.mapM (poseBearing W R) = some pbs) (Q : Recon (Iso ℝ))
    (l : Nat) (L : Landmark) (hQ : R.Refines Q) (hL : Q.landmarks.get l = some L) (hRL : R.landmarks.get l = some L) :
    ∃ Q' L' es, Recon.splitStep (geoOracle W lim ω) Q l = some Q' ∧ Recon.SplitOff Q Q' l L L' es ∧
      Recon.Keeps L L' (fun _ => areObservationsRobust W R L.entries = some true ∧
        ∃ pbs p, SeenAs W R L.entries pbs ∧ W.triangulate pbs = some p) := by
  obtain ⟨pbs, hpbs⟩ := hb l L hRL
  have hne := Recon.entries_ne_nil hQ.cons hL
  have hpQ : L.entries.mapM (poseBearing W Q) = some pbs := (mapM_refines hQ W _).trans hpbs
  have hrob : areObservationsRobust W Q L.entries = areObservationsRobust W R L.entries := by
    unfold areObservationsRobust
    rw [hpQ, hpbs, views_size_refines hR hQ]
  obtain ⟨x, hx⟩ : ∃ x, areObservationsRobust W R L.entries = some x := by
    unfold areObservationsRobust
    rw [hpbs]
    exact ⟨_, rfl⟩
  have ht : triangulateRobust W Q l = some (if x then W.triangulate pbs else none) := by
    unfold triangulateRobust
    rw [hL]
    simp only [Option.bind_eq_bind, Option.bind_some, hrob, hx, hpQ]
    rfl
  have hg : (geoOracle W lim ω).triangulates Q l = (if x then W.triangulate pbs else none).isSome := by
    simp only [geoOracle, ht, Option.getD_some]
  unfold Recon.splitStep
  simp only [hL]
  rw [hg]
  by_cases h : (if x then W.triangulate pbs else none).isSome = true
  · rw [if_pos h]
    refine ⟨Q, L, [], rfl, Recon.SplitOff.refl hQ.cons hL, ?_⟩
    have hk : areObservationsRobust W R L.entries = some true ∧
        ∃ pbs p, SeenAs W R L.entries pbs ∧ W.triangulate pbs = some p := by
      cases x with
      | false => simp at h
      | true =>
        obtain ⟨p, hp⟩ := Option.isSome_iff_exists.1 h
        exact ⟨hx, pbs, p, (seenAs_iff ..).2 hpbs, hp⟩
    refine ⟨fun _ o => ⟨fun ho => ⟨ho, hk⟩, fun ho => ho.1⟩, fun hn => ?_⟩
    obtain ⟨o, ho⟩ := List.exists_mem_of_ne_nil _ hne
    exact absurd ⟨o, ho, hk⟩ hn
  · rw [if_neg h]
    obtain ⟨Q', L', h1, es, h2, h3⟩ := Recon.SplitOff.landmark hQ.cons hL
    refine ⟨Q', L', es, h1, h2, fun ⟨o, ho, hf⟩ => absurd hf ?_, fun _ => h3⟩
    rintro ⟨hr, r, p, hs, hp⟩
    rw [seenAs_iff, hpbs] at hs
    cases hs
    rw [hx] at hr
    cases hr
    rw [if_pos rfl, hp] at h
    simp at h

end Tests

end Verif.Sfm
