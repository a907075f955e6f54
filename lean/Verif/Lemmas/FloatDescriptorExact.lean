import Verif.Lemmas.FloatOrientExact

/-!
# Descriptors without rounding
-/

namespace Verif.Akaze

open Verif.Bicubic (Flt)
open FloatOps

namespace Unrounded

/-- The frame with unrounded numbers. -/
def numFrame (f : Frame) : FFrame Unrounded := ⟨num f.xf, num f.yf, num f.co, num f.si, num f.scale⟩

/-- Three unrounded numbers. -/
def num3 (s : ℝ × ℝ × ℝ) : Unrounded × Unrounded × Unrounded := (num s.1, num s.2.1, num s.2.2)

theorem frameOf_num (k : KeyPoint) : fframeOf (numKey k) = numFrame (frameOf k) := by
  have hp : (2 : ℝ) ^ k.octave ≠ 0 := by positivity
  have ho : (((2 ^ (numKey k).octave : Nat) : Nat) : Unrounded) = num (2 ^ k.octave) := num_natPow _
  simp only [fframeOf, frameOf, numFrame]
  rw [ho]
  simp only [numKey, num_div hp, lit_half, num_mul, num_cos, num_sin, num_round]

theorem orPanic_map {α β : Type} (f : α → β) (o : Option α) : orPanic (o.map f) = (orPanic o).map f := by
  cases o <;> rfl

theorem except_bind_map {α β γ : Type} (x : Except Fault α) (f : α → β) (g : β → Except Fault γ) :
    (x.map f).bind g = x.bind (fun a => g (f a)) := by cases x <;> rfl

theorem except_map_bind {α β γ : Type} (x : Except Fault α) (g : α → Except Fault β) (f : β → γ) :
    (x.bind g).map f = x.bind (fun a => (g a).map f) := by cases x <;> rfl

theorem sampleValue_num (channels : Nat) (lv : DetLevel) (fr : Frame) (s : ℝ × ℝ × ℝ) (k l : ℤ) :
    fsampleValue channels (numDet lv) (numFrame fr) (num3 s) k l
      = (sampleValue channels lv fr k l).map (fun v => num3 (s.1 + v.1, s.2.1 + v.2.1, s.2.2 + v.2.2)) := by
  have hy : toInt (round ((numFrame fr).yf + (ofInt l * (numFrame fr).co * (numFrame fr).scale
      + ofInt k * (numFrame fr).si * (numFrame fr).scale)))
      = roundAway (fr.yf + (l * fr.co * fr.scale + k * fr.si * fr.scale)) := by
    simp only [numFrame, num_ofInt, num_mul, num_add, num_round, num_toInt, Int.floor_intCast]
  have hx : toInt (round ((numFrame fr).xf + (-ofInt l * (numFrame fr).si * (numFrame fr).scale
      + ofInt k * (numFrame fr).co * (numFrame fr).scale)))
      = roundAway (fr.xf + (-l * fr.si * fr.scale + k * fr.co * fr.scale)) := by
    simp only [numFrame, num_ofInt, num_mul, num_neg, num_add, num_round, num_toInt, Int.floor_intCast]
  simp only [fsampleValue, sampleValue]
  rw [hx, hy]
  generalize roundAway (fr.yf + (l * fr.co * fr.scale + k * fr.si * fr.scale)) = y
  generalize roundAway (fr.xf + (-l * fr.si * fr.scale + k * fr.co * fr.scale)) = x
  by_cases hc : ¬ (0 ≤ x ∧ x < lv.lt.w) ∨ ¬ (0 ≤ y ∧ y < lv.lt.h)
  · rw [if_pos hc]
    rw [Transfer.ite_yes _ (show ¬ (0 ≤ x ∧ x < (numDet lv).lt.w) ∨ ¬ (0 ≤ y ∧ y < (numDet lv).lt.h) from hc)]
    rfl
  · rw [if_neg hc]
    rw [Transfer.ite_no _ (show ¬ (¬ (0 ≤ x ∧ x < (numDet lv).lt.w) ∨ ¬ (0 ≤ y ∧ y < (numDet lv).lt.h)) from hc)]
    have g1 : (numDet lv).lt.get x.toNat y.toNat = (lv.lt.get x.toNat y.toNat).map num := Transfer.map_get _ _ _ _
    have g2 : (numDet lv).lx.get x.toNat y.toNat = (lv.lx.get x.toNat y.toNat).map num := Transfer.map_get _ _ _ _
    have g3 : (numDet lv).ly.get x.toNat y.toNat = (lv.ly.get x.toNat y.toNat).map num := Transfer.map_get _ _ _ _
    rw [g1, g2, g3]
    cases lv.lt.get x.toNat y.toNat with
    | none => rfl
    | some ri =>
      by_cases h1 : channels > 1
      · cases lv.lx.get x.toNat y.toNat with
        | none =>
          show (if channels > 1 then _ else _) = Except.map _ (if channels > 1 then _ else _)
          rw [if_pos h1, if_pos h1]; rfl
        | some rx =>
          cases lv.ly.get x.toNat y.toNat with
          | none =>
            show (if channels > 1 then _ else _) = Except.map _ (if channels > 1 then _ else _)
            rw [if_pos h1, if_pos h1]; rfl
          | some ry =>
            show (if channels > 1 then (if channels = 2 then _ else _) else _)
              = Except.map _ (if channels > 1 then (if channels = 2 then _ else _) else _)
            rw [if_pos h1, if_pos h1]
            by_cases h2 : channels = 2
            · rw [if_pos h2, if_pos h2]
              show Except.ok (num s.1 + num ri, num s.2.1 + sqrt (num rx * num rx + num ry * num ry), num s.2.2)
                = Except.ok (num (s.1 + ri), num (s.2.1 + √(rx * rx + ry * ry)), num (s.2.2 + 0))
              rw [num_mul, num_mul, num_add, num_add,
                num_sqrt (add_nonneg (mul_self_nonneg rx) (mul_self_nonneg ry)), num_add, add_zero]
            · rw [if_neg h2, if_neg h2]
              show Except.ok (num s.1 + num ri, num s.2.1 + (-num rx * num fr.si + num ry * num fr.co),
                num s.2.2 + (num rx * num fr.co + num ry * num fr.si)) = Except.ok _
              simp only [num_neg, num_mul, num_add]
              rfl
      · show (if channels > 1 then _ else _) = Except.map _ (if channels > 1 then _ else _)
        rw [if_neg h1, if_neg h1]
        show Except.ok (num s.1 + num ri, num s.2.1, num s.2.2) = Except.ok (num (s.1 + ri), num (s.2.1 + 0), num (s.2.2 + 0))
        rw [num_add, add_zero, add_zero]

theorem samples_num (channels : Nat) (lv : DetLevel) (fr : Frame) : ∀ (ps : List (ℤ × ℤ)) (s : ℝ × ℝ × ℝ),
    ps.foldlM (fun sum p => fsampleValue channels (numDet lv) (numFrame fr) sum p.1 p.2) (num3 s)
      = (ps.mapM (fun p => sampleValue channels lv fr p.1 p.2)).map (fun vs =>
        num3 (s.1 + (vs.map (fun v => v.1)).sum, s.2.1 + (vs.map (fun v => v.2.1)).sum, s.2.2 + (vs.map (fun v => v.2.2)).sum))
  | [], s => by
    show Except.ok (num3 s) = Except.ok (num3 (s.1 + 0, s.2.1 + 0, s.2.2 + 0))
    rw [add_zero, add_zero, add_zero]
  | p :: ps, s => by
    rw [List.foldlM_cons, List.mapM_cons, sampleValue_num]
    cases sampleValue channels lv fr p.1 p.2 with
    | error e => rfl
    | ok v =>
      show ps.foldlM _ (num3 (s.1 + v.1, s.2.1 + v.2.1, s.2.2 + v.2.2)) = _
      rw [samples_num channels lv fr ps]
      show _ = Except.map _ (Except.bind (ps.mapM (fun p => sampleValue channels lv fr p.1 p.2)) _)
      rw [except_map_bind]
      cases ps.mapM (fun p => sampleValue channels lv fr p.1 p.2) with
      | error e => rfl
      | ok vs =>
        show Except.ok _ = Except.ok _
        simp only [List.map_cons, List.sum_cons, add_assoc]

theorem mapM_length {α β : Type} {f : α → Except Fault β} : ∀ {l : List α} {r : List β}, l.mapM f = .ok r →
    r.length = l.length
  | [], r, h => by cases h; rfl
  | a :: l, r, h => by
    rw [List.mapM_cons] at h
    cases ha : f a with
    | error e => rw [ha] at h; cases h
    | ok b =>
      rw [ha] at h
      cases hr : l.mapM f with
      | error e => rw [hr] at h; cases h
      | ok r' =>
        rw [hr] at h
        cases h
        rw [List.length_cons, List.length_cons, mapM_length hr]

theorem cellValue_num (channels : Nat) {step : Nat} (hs : step ≠ 0) (lv : DetLevel) (fr : Frame) (i j : ℤ) :
    fcellValue channels step (numDet lv) (numFrame fr) i j = (cellValue channels step lv fr i j).map num3 := by
  have h0 : ((0, 0, 0) : Unrounded × Unrounded × Unrounded) = num3 (0, 0, 0) := rfl
  unfold fcellValue cellValue
  rw [h0, samples_num]
  cases h : (((intRange i step).flatMap (fun k => (intRange j step).map (fun l => (k, l)))).mapM
    (fun p => sampleValue channels lv fr p.1 p.2)) with
  | error e => rfl
  | ok vs =>
    have hl := mapM_length h
    have hlen : vs.length = step * step := by
      rw [hl]
      simp [intRange, List.length_flatMap, Function.comp_def]
    have hne : (vs.length : ℝ) ≠ 0 := by
      rw [hlen]
      exact_mod_cast mul_ne_zero hs hs
    show Except.ok (num (0 + _) / ((step * step : Nat) : Unrounded), num (0 + _) / ((step * step : Nat) : Unrounded),
      num (0 + _) / ((step * step : Nat) : Unrounded)) = Except.ok (num _, num _, num _)
    rw [num_cast, ← hlen, num_div hne, num_div hne, num_div hne, zero_add, zero_add, zero_add]

theorem writeAt_num (l : List ℝ) (i : Nat) (v : ℝ) : writeAt (l.map num) i (num v) = (writeAt l i v).map (List.map num) := by
  unfold writeAt
  rw [List.length_map]
  split
  · rw [← List.map_set]; rfl
  · rfl

theorem writeIf_num (b : Prop) [Decidable b] (l : List ℝ) (i : Nat) (v : ℝ) :
    writeIf b (l.map num) i (num v) = (writeIf b l i v).map (List.map num) := by
  unfold writeIf
  split
  · exact writeAt_num l i v
  · rfl

/-- The buffer and the position with unrounded numbers. -/
def numBuf (st : List ℝ × Nat) : List Unrounded × Nat := (st.1.map num, st.2)

theorem storeCell_num (channels : Nat) (st : List ℝ × Nat) (v : ℝ × ℝ × ℝ) :
    fstoreCell channels (numBuf st) (num3 v) = (storeCell channels st v).map numBuf := by
  unfold fstoreCell storeCell
  show (writeAt (st.1.map num) st.2 (num v.1)).bind _ = Except.map _ ((writeAt st.1 st.2 v.1).bind _)
  rw [writeAt_num, except_bind_map, except_map_bind]
  congr 1
  funext a
  show (writeIf (channels > 1) (a.map num) (st.2 + 1) (num v.2.1)).bind _
    = Except.map _ ((writeIf (channels > 1) a (st.2 + 1) v.2.1).bind _)
  rw [writeIf_num, except_bind_map, except_map_bind]
  congr 1
  funext b
  show (writeIf (channels > 2) (b.map num) (st.2 + 2) (num v.2.2)).bind _
    = Except.map _ ((writeIf (channels > 2) b (st.2 + 2) v.2.2).bind _)
  rw [writeIf_num, except_bind_map, except_map_bind]
  rfl

theorem foldlM_num {σ τ α : Type} {φ : σ → τ} {f : σ → α → Except Fault σ} {g : τ → α → Except Fault τ}
    (h : ∀ s a, g (φ s) a = (f s a).map φ) : ∀ (l : List α) (s : σ), l.foldlM g (φ s) = (l.foldlM f s).map φ
  | [], _ => rfl
  | a :: l, s => by
    rw [List.foldlM_cons, List.foldlM_cons, h]
    cases f s a with
    | error e => rfl
    | ok s' => exact foldlM_num h l s'

theorem fillValues_num (p channels step : Nat) (lv : DetLevel) (fr : Frame) (values : List ℝ) :
    ffillValues p channels step (numDet lv) (numFrame fr) (values.map num)
      = (fillValues p channels step lv fr values).map (List.map num) := by
  unfold ffillValues fillValues
  by_cases hs : step = 0
  · rw [if_pos hs, if_pos hs]; rfl
  rw [if_neg hs, if_neg hs]
  have := foldlM_num (φ := numBuf) (f := fun (st : List ℝ × Nat) (c : ℤ × ℤ) => do
      let v ← cellValue channels step lv fr c.1 c.2
      storeCell channels st v) (g := fun st c => do
      let v ← fcellValue channels step (numDet lv) (numFrame fr) c.1 c.2
      fstoreCell channels st v) (fun s c => by
        show (fcellValue channels step (numDet lv) (numFrame fr) c.1 c.2).bind _
          = Except.map _ ((cellValue channels step lv fr c.1 c.2).bind _)
        rw [cellValue_num channels hs, except_bind_map, except_map_bind]
        congr 1
        funext v
        exact storeCell_num channels s v)
    ((starts p step).flatMap (fun i => (starts p step).map (fun j => (i, j)))) (values, 0)
  show Except.bind _ _ = Except.map _ (Except.bind _ _)
  show Except.bind (List.foldlM _ (numBuf (values, 0)) _) _ = _
  rw [this, except_bind_map, except_map_bind]
  rfl

theorem compareOne_num (channels : Nat) (values : List ℝ) (st : List (BitVec 8) × Nat) (c : Nat × Nat × Nat) :
    fcompareOne channels (values.map num) st c = compareOne channels values st c := by
  unfold fcompareOne compareOne
  rw [List.getElem?_map, List.getElem?_map, orPanic_map, orPanic_map]
  show Except.bind _ _ = Except.bind _ _
  rw [except_bind_map]
  congr 1
  funext a
  show Except.bind _ _ = Except.bind _ _
  rw [except_bind_map]
  congr 1
  funext b
  have : (if lt (num b) (num a) = true then (1 : BitVec 8) else 0) = if a > b then 1 else 0 := by
    by_cases h : a > b
    · rw [if_pos h, if_pos ((num_lt _ _).2 h)]
    · rw [if_neg h, if_neg (fun hc => h ((num_lt _ _).1 hc))]
  rw [this]

theorem sizeMult_num : (fsizeMult : List Unrounded) = sizeMult.map num := by
  simp only [fsizeMult, sizeMult, List.map_cons, List.map_nil, num_one, num_two, num_three,
    num_div (show (3 : ℝ) ≠ 0 by norm_num), num_div (show (2 : ℝ) ≠ 0 by norm_num)]

theorem step_num {p : Nat} (hp : p < 2 ^ 64) {m : ℝ} (hm : m ≤ 1) : toNat (ceil ((p : Unrounded) * num m)) = ⌈(p : ℝ) * m⌉₊ := by
  rw [num_cast, num_mul, num_ceil, num_toNat_int, Int.ceil_toNat]
  have : ⌈(p : ℝ) * m⌉₊ ≤ p := Nat.ceil_le.2 (mul_le_of_le_one_right (Nat.cast_nonneg p) hm)
  omega

/-- The state of the loop over the widths with unrounded numbers. -/
def numState (st : List ℝ × List (BitVec 8) × Nat) : List Unrounded × List (BitVec 8) × Nat := (st.1.map num, st.2)

theorem foldlM_num' {σ τ α β : Type} {φ : σ → τ} {ψ : α → β} {f : σ → α → Except Fault σ} {g : τ → β → Except Fault τ} : ∀
    (l : List α) (s : σ), (∀ a ∈ l, ∀ s, g (φ s) (ψ a) = (f s a).map φ) → (l.map ψ).foldlM g (φ s) = (l.foldlM f s).map φ
  | [], _, _ => rfl
  | a :: l, s, h => by
    rw [List.map_cons, List.foldlM_cons, List.foldlM_cons, h a (by simp)]
    cases f s a with
    | error e => rfl
    | ok s' => exact foldlM_num' l s' (fun b hb => h b (by simp [hb]))

theorem mldbDescriptor_num {p : Nat} (hp : p < 2 ^ 64) (channels : Nat) (levels : List DetLevel) (k : KeyPoint) :
    fmldbDescriptor p channels (levels.map numDet) (numKey k) = mldbDescriptor p channels levels k := by
  unfold fmldbDescriptor mldbDescriptor
  by_cases hc : 3 < channels
  · rw [if_pos hc, if_pos hc]
  rw [if_neg hc, if_neg hc]
  have hg : (levels.map numDet)[(numKey k).classId]? = (levels[k.classId]?).map numDet := List.getElem?_map ..
  rw [hg, orPanic_map]
  show Except.bind _ _ = Except.bind _ _
  rw [except_bind_map]
  congr 1
  funext lv
  rw [sizeMult_num, List.zipIdx_map, frameOf_num]
  have h0 : ((List.replicate 48 0, List.replicate 64 0, 0) : List Unrounded × List (BitVec 8) × Nat)
      = numState (List.replicate 48 0, List.replicate 64 0, 0) := by
    simp only [numState, List.map_replicate]; rfl
  show Except.bind _ _ = Except.bind _ _
  rw [h0, foldlM_num' (φ := numState) (f := fun (st : List ℝ × List (BitVec 8) × Nat) (m : ℝ × Nat) => do
      let values ← fillValues p channels ⌈(p : ℝ) * m.1⌉₊ lv (frameOf k) st.1
      let out ← binaryComparisons channels ((m.2 + 2) * (m.2 + 2)) values st.2
      pure (values, out)) sizeMult.zipIdx, except_bind_map]
  · rfl
  · intro m hm st
    have hm1 : m.1 ≤ 1 := by
      simp only [sizeMult, List.zipIdx_cons, List.zipIdx_nil, List.mem_cons, List.not_mem_nil, or_false] at hm
      rcases hm with rfl | rfl | rfl <;> norm_num
    show (ffillValues p channels (toNat (ceil ((p : Unrounded) * num m.1))) (numDet lv) (numFrame (frameOf k)) (st.1.map num)).bind _
      = Except.map _ ((fillValues p channels ⌈(p : ℝ) * m.1⌉₊ lv (frameOf k) st.1).bind _)
    rw [step_num hp hm1, fillValues_num, except_bind_map, except_map_bind]
    congr 1
    funext values
    have hb : ∀ (l : List (Nat × Nat × Nat)) st, l.foldlM (fcompareOne channels (values.map num)) st
        = l.foldlM (compareOne channels values) st := by
      intro l
      have : fcompareOne channels (values.map num) = compareOne channels values := by
        funext st c; exact compareOne_num channels values st c
      rw [this]; exact fun _ => rfl
    show (List.foldlM (fcompareOne channels (values.map num)) st.2 (comparisons channels ((m.2 + 2) * (m.2 + 2)))).bind _
      = Except.map _ ((List.foldlM (compareOne channels values) st.2 (comparisons channels ((m.2 + 2) * (m.2 + 2)))).bind _)
    rw [hb, except_map_bind]
    rfl

theorem extractDescriptors_num {p : Nat} (hp : p < 2 ^ 64) (channels : Nat) (levels : List DetLevel) :
    ∀ ks : List KeyPoint, fextractDescriptors p channels (levels.map numDet) (ks.map numKey)
      = (extractDescriptors p channels levels ks).map (List.map (Prod.map numKey id))
  | [] => rfl
  | k :: ks => by
    rw [List.map_cons, fextractDescriptors, extractDescriptors, mldbDescriptor_num hp]
    have ih := extractDescriptors_num hp channels levels ks
    cases mldbDescriptor p channels levels k with
    | error e =>
      cases e
      · rfl
      · exact ih
    | ok d =>
      show (fextractDescriptors p channels (levels.map numDet) (ks.map numKey)).map _ = _
      rw [ih]
      show _ = Option.map _ ((extractDescriptors p channels levels ks).map _)
      rw [Option.map_map, Option.map_map]
      rfl

/-! ### The scales of the levels -/

theorem allocate_levels {c : Config} (hn : 0 < c.numSublevels) {w h : Nat} {ls : List Level}
    (ha : allocate c w h = some ls) : ∀ l ∈ ls, ∃ i, l.octave = i / c.numSublevels ∧ l.esigma = scaleOf c i := by
  obtain ⟨full, extra, ho, -⟩ := levels_upto c hn w h c.maxOctave
  rw [allocate_eq c hn ho] at ha
  split at ha
  · cases ha; simp
  obtain ⟨rest, hr, rfl⟩ := Option.map_eq_some_iff.1 ha
  obtain ⟨hlen, hk⟩ := setSteps_spec c _ 0 hr
  intro l hl
  rcases List.mem_cons.1 hl with rfl | hl
  · exact ⟨0, rfl, rfl⟩
  · obtain ⟨k, hk', e⟩ := List.mem_iff_getElem.1 hl
    obtain ⟨steps, -, hg⟩ := hk k (by omega)
    rw [List.getElem?_eq_getElem hk', e] at hg
    cases hg
    exact ⟨0 + 1 + k, rfl, rfl⟩

theorem edge_lt {s : Settings} (hs : Moderate s) (hb : 0 < s.baseScale) (hn : 0 < s.numSublevels) (i : Nat) :
    edgeScale s.derivativeFactor (i / s.numSublevels) (scaleOf s.toConfig i) < 2 ^ 30 := by
  have hn' : (0 : ℝ) < s.numSublevels := by exact_mod_cast hn
  have he : scaleOf s.toConfig i / 2 ^ (i / s.numSublevels) ≤ s.baseScale * 2 := by
    rw [div_le_iff₀ (by positivity)]
    unfold scaleOf
    rw [mul_assoc]
    refine mul_le_mul_of_nonneg_left ?_ hb.le
    rw [← Real.rpow_natCast 2 (i / s.numSublevels)]
    nth_rw 2 [← Real.rpow_one 2]
    rw [← Real.rpow_add (by norm_num)]
    refine Real.rpow_le_rpow_of_exponent_le (by norm_num) ?_
    rw [div_le_iff₀ hn']
    have := Nat.lt_div_mul_add (a := i) hn
    have h2 : (i : ℝ) < (i / s.numSublevels : Nat) * s.numSublevels + s.numSublevels := by exact_mod_cast this
    linarith
  have h0 : 0 ≤ scaleOf s.toConfig i / 2 ^ (i / s.numSublevels) := by
    have := hb
    unfold scaleOf
    positivity
  have hx : scaleOf s.toConfig i * s.derivativeFactor / 2 ^ (i / s.numSublevels) ≤ 2 ^ 29 := by
    rw [mul_div_right_comm]
    rcases le_total s.derivativeFactor 0 with hd | hd
    · have := mul_nonpos_of_nonneg_of_nonpos h0 hd
      norm_num at this ⊢
      linarith
    · have h1 := mul_le_mul_of_nonneg_right he hd
      have h2 := hs.derivative
      norm_num at h1 h2 ⊢
      linarith
  have hr := roundAway_mono hx
  have : roundAway ((2 : ℝ) ^ 29) = 2 ^ 29 := by
    have := roundAway_int (2 ^ 29)
    norm_num at this ⊢
    exact this
  rw [this] at hr
  unfold edgeScale
  omega

end Unrounded

end Verif.Akaze
