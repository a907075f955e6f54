import Verif.Lemmas.SfmSplit
import Verif.Spec.SfmFilter
import Mathlib.Data.List.Basic
import Mathlib.Data.List.Perm.Basic
import Mathlib.Data.List.Forall2

/-! Helper lemmas: the exact effect of splitting observations off a landmark. -/

namespace Verif.Sfm

open Verif.Geo

variable {P : Type} {C : Type}

namespace Recon

/-- What splitting off the observations `es` of landmark `l` leaves. -/
structure SplitOff (R R' : Recon P) (l : Nat) (L L' : Landmark) (es : List (Nat × Nat)) : Prop where
  refines : Refines R R'
  kept : R'.landmarks.get l = some L'
  rest : es.length < L.entries.length → ∀ o, o ∈ L'.entries ↔ o ∈ L.entries ∧ o ∉ es
  all : es.length = L.entries.length → ∃ o ∈ L.entries, L'.entries = [o]
  off : ∀ o ∈ L.entries, o ∉ L'.entries → ∃ m, R.landmarks.next ≤ m ∧ R'.landmarks.get m = some ⟨[o]⟩
  others : ∀ c, c ≠ l → c < R.landmarks.next → R'.landmarks.get c = R.landmarks.get c
  fresh : ∀ m M, R.landmarks.next ≤ m → R'.landmarks.get m = some M → ∃ o ∈ L.entries, M.entries = [o]

theorem SplitOff.refl {R : Recon P} (hR : R.Consistent) {l : Nat} {L : Landmark} (hL : R.landmarks.get l = some L) :
    SplitOff R R l L L [] := by
  refine ⟨Refines.refl hR, hL, fun _ o => by simp, ?_, fun o ho hn => absurd ho hn, fun _ _ _ => rfl, ?_⟩
  · intro h
    have := entries_ne_nil hR hL
    cases hE : L.entries <;> simp_all
  · intro m M hm hM
    have := hR.landmarksWF.fresh _ _ hM
    omega

theorem nodup_entries {L : Landmark} (h : L.WF) : L.entries.Nodup := List.Nodup.of_map Prod.fst h

/-- Splitting off a part of the observations of a landmark, in any order. -/
theorem splitAll_exact (es : List (Nat × Nat)) : ∀ {R : Recon P} {l : Nat} {L : Landmark}, R.Consistent →
    R.landmarks.get l = some L → es.Nodup → (∀ e ∈ es, e ∈ L.entries) →
    ∃ R' L', splitAll es R = some R' ∧ SplitOff R R' l L L' es := by
  induction es with
  | nil => intro R l L hR hL _ _; exact ⟨R, L, rfl, SplitOff.refl hR hL⟩
  | cons e es ih =>
    obtain ⟨v, f⟩ := e
    intro R l L hR hL hnd hmem
    rw [List.nodup_cons] at hnd
    have hw := hR.obsWF l L hL
    have hin : (v, f) ∈ L.entries := hmem _ (by simp)
    have ha : R.Assigned v f l := entry_assigned hR hL hin
    have hlt : l < R.landmarks.next := assigned_lt hR ha
    by_cases h2 : 2 ≤ L.size
    · obtain ⟨R1, h1, hr, hnext, hold, hoth, _⟩ := split_assigned hR ha hL h2
      obtain ⟨R1', h1', _, _, _, _, _, _, hnew, _⟩ := (splitObservation_spec hR ha hL).2 h2
      rw [h1] at h1'
      cases h1'
      have herase : ∀ o, o ∈ (L.erase v).entries ↔ o ∈ L.entries ∧ o ≠ (v, f) := by
        intro o
        simp only [FMap.erase, List.mem_filter, bne_iff_ne, ne_eq, and_congr_right_iff]
        intro ho
        constructor
        · rintro h rfl; exact h rfl
        · intro h hv
          apply h
          obtain ⟨w, g⟩ := o
          simp only at hv
          subst hv
          have e1 := FMap.get_of_mem hw ho
          have e2 := FMap.get_of_mem hw hin
          rw [e1] at e2
          cases e2; rfl
      have hlen : (L.erase v).entries.length + 1 = L.entries.length := by
        have hp : L.entries.Perm ((v, f) :: (L.erase v).entries) := by
          rw [List.perm_ext_iff_of_nodup (nodup_entries hw)]
          · intro o
            rw [List.mem_cons, herase]
            constructor
            · intro ho
              by_cases h : o = (v, f)
              · exact Or.inl h
              · exact Or.inr ⟨ho, h⟩
            · rintro (rfl | h)
              · exact hin
              · exact h.1
          · rw [List.nodup_cons]
            exact ⟨fun h => ((herase _).1 h).2 rfl, (nodup_entries hw).filter _⟩
        rw [hp.length_eq, List.length_cons]
      obtain ⟨R2, L2, hs2, ho2⟩ := ih hr.cons hold hnd.2 (by
        intro e he
        rw [herase]
        exact ⟨hmem e (List.mem_cons_of_mem _ he), fun h => hnd.1 (h ▸ he)⟩)
      refine ⟨R2, L2, by simp only [splitAll, h1, hs2], ⟨hr.trans ho2.refines, ho2.kept, ?_, ?_, ?_, ?_, ?_⟩⟩
      · intro hl o
        rw [List.length_cons] at hl
        rw [ho2.rest (by omega), herase, List.mem_cons, not_or, and_assoc]
      · intro hl
        rw [List.length_cons] at hl
        obtain ⟨o, ho, hE⟩ := ho2.all (by omega)
        exact ⟨o, ((herase o).1 ho).1, hE⟩
      · intro o ho hn
        by_cases h : o = (v, f)
        · subst h
          refine ⟨R.landmarks.next, Nat.le_refl _, ?_⟩
          rw [ho2.others _ (by omega) (by omega), hnew]
          rfl
        · obtain ⟨m, hm, hM⟩ := ho2.off o ((herase o).2 ⟨ho, h⟩) hn
          exact ⟨m, by omega, hM⟩
      · intro c hc hlt
        rw [ho2.others c hc (by omega)]
        exact hoth c hc (by omega)
      · intro m M hm hM
        by_cases h : m = R.landmarks.next
        · subst h
          rw [ho2.others _ (by omega) (by omega), hnew] at hM
          cases hM
          exact ⟨(v, f), hin, rfl⟩
        · obtain ⟨o, ho, hE⟩ := ho2.fresh m M (by omega) hM
          exact ⟨o, ((herase o).1 ho).1, hE⟩
    · have h1 := (splitObservation_spec hR ha hL).1 (by omega)
      have hE : L.entries = [(v, f)] := by
        have : L.entries.length < 2 := by simpa [FMap.size] using h2
        match hE : L.entries with
        | [] => rw [hE] at hin; simp at hin
        | [x] => rw [hE] at hin; simp at hin; rw [hin]
        | _ :: _ :: _ => rw [hE] at this; simp at this
      have hes : es = [] := by
        cases es with
        | nil => rfl
        | cons e es =>
          have he := hmem e (by simp)
          rw [hE] at he
          simp at he
          subst he
          exact absurd (by simp) hnd.1
      subst hes
      obtain h0 := SplitOff.refl hR hL
      refine ⟨R, L, by simp only [splitAll, h1], ⟨h0.refines, hL, ?_, ?_, h0.off, h0.others, h0.fresh⟩⟩
      · rw [hE]; simp
      · intro _; exact ⟨(v, f), hin, hE⟩

theorem SplitOff.landmark {R : Recon P} (hR : R.Consistent) {l : Nat} {L : Landmark}
    (hL : R.landmarks.get l = some L) : ∃ R' L', R.splitLandmark L.entries = some R' ∧ ∃ es, SplitOff R R' l L L' es ∧
      ∃ o ∈ L.entries, L'.entries = [o] := by
  match hE : L.entries with
  | [] => exact absurd hE (entries_ne_nil hR hL)
  | e :: rest =>
    have hnd := nodup_entries (hR.obsWF l L hL)
    rw [hE, List.nodup_cons] at hnd
    obtain ⟨R', L', h1, h2⟩ := splitAll_exact rest hR hL hnd.2 (by rw [hE]; intro e he; exact List.mem_cons_of_mem _ he)
    refine ⟨R', L', h1, rest, h2, e, by simp, ?_⟩
    have h3 := h2.rest (by rw [hE]; simp)
    have hw := nodup_entries (h2.refines.cons.obsWF l L' h2.kept)
    have hp : L'.entries.Perm [e] := by
      rw [List.perm_ext_iff_of_nodup hw (by simp)]
      intro o
      rw [h3, hE, List.mem_cons, List.mem_singleton]
      constructor
      · rintro ⟨h | h, h'⟩
        · exact h
        · exact absurd h h'
      · rintro rfl; exact ⟨Or.inl rfl, hnd.1⟩
    exact List.perm_singleton.1 hp

end Recon

/-! ## Lookups after splitting -/

theorem poseBearing_refines {R R' : Recon (Iso ℝ)} (h : R.Refines R') (W : World C) (o : Nat × Nat) :
    poseBearing W R' o = poseBearing W R o := by
  have hv := h.views o.1
  unfold poseBearing
  cases h1 : R.views.get o.1 with
  | none =>
    cases h2 : R'.views.get o.1 with
    | none => rfl
    | some V' => rw [h1, h2] at hv; simp at hv
  | some V =>
    cases h2 : R'.views.get o.1 with
    | none => rw [h1, h2] at hv; simp at hv
    | some V' =>
      rw [h1, h2] at hv
      simp only [Option.map_some, Option.some.injEq, Prod.mk.injEq] at hv
      simp only [Option.bind_eq_bind, Option.bind_some, hv.1, hv.2.1]

theorem mapM_refines {R R' : Recon (Iso ℝ)} (h : R.Refines R') (W : World C) (l : List (Nat × Nat)) :
    l.mapM (poseBearing W R') = l.mapM (poseBearing W R) := by
  congr 1; funext o; exact poseBearing_refines h W o

theorem views_size_refines {R R' : Recon P} (hR : R.Consistent) (h : R.Refines R') : R'.views.size = R.views.size := by
  have hp : R'.views.keys.Perm R.views.keys := by
    refine (List.perm_ext_iff_of_nodup h.cons.viewsWF.nodup hR.viewsWF.nodup).2 ?_
    intro v
    change v ∈ R'.views.keys ↔ v ∈ R.views.keys
    rw [SlotMap.mem_keys_iff, SlotMap.mem_keys_iff]
    have hv := h.views v
    constructor
    · rintro ⟨V, hV⟩
      rw [hV] at hv
      cases h1 : R.views.get v with
      | none => rw [h1] at hv; simp at hv
      | some V' => exact ⟨V', rfl⟩
    · rintro ⟨V, hV⟩
      rw [hV] at hv
      cases h1 : R'.views.get v with
      | none => rw [h1] at hv; simp at hv
      | some V' => exact ⟨V', rfl⟩
  have := hp.length_eq
  simpa [SlotMap.keys, FMap.keys, SlotMap.size, FMap.size] using this

theorem seenAs_iff (W : World C) (R : Recon (Iso ℝ)) (obs : List (Nat × Nat)) (pbs : List (Iso ℝ × V3 ℝ)) :
    SeenAs W R obs pbs ↔ obs.mapM (poseBearing W R) = some pbs := by
  have h1 : ∀ o p, (∃ V, R.views.get o.1 = some V ∧ V.pose = p.1 ∧ W.bearing V.frame o.2 = some p.2) ↔
      poseBearing W R o = some p := by
    intro o p
    unfold poseBearing
    simp only [Option.bind_eq_bind, Option.bind_eq_some_iff]
    constructor
    · rintro ⟨V, h1, h2, h3⟩
      exact ⟨V, h1, p.2, h3, by rw [h2]; rfl⟩
    · rintro ⟨V, h1, b, h2, h3⟩
      cases h3
      exact ⟨V, h1, rfl, h2⟩
  unfold SeenAs
  induction obs generalizing pbs with
  | nil =>
    simp only [List.forall₂_nil_left_iff, List.mapM_nil]
    constructor
    · rintro rfl; rfl
    · intro h; cases h; rfl
  | cons o obs ih =>
    rw [List.forall₂_cons_left_iff]
    simp only [List.mapM_cons, Option.bind_eq_bind, Option.bind_eq_some_iff]
    constructor
    · rintro ⟨p, ps, h2, h3, rfl⟩
      exact ⟨p, (h1 o p).1 h2, ps, (ih ps).1 h3, rfl⟩
    · rintro ⟨p, h2, ps, h3, h4⟩
      cases h4
      exact ⟨p, ps, (h1 o p).2 h2, (ih ps).2 h3, rfl⟩

end Verif.Sfm
