import Verif.Model.FloatAkaze
import Verif.Lemmas.Image

/-!
# Lemmas: sizes of images do not depend on the values of pixels
-/

namespace Verif.Akaze

variable {K : Type _}

/-- The image has this size. -/
def OfSize (i : Img K) (w h : Nat) : Prop := i.WF ∧ i.w = w ∧ i.h = h

theorem pixel_lt {w h x y : Nat} (hx : x < w) (hy : y < h) : y * w + x < w * h := by
  calc y * w + x < y * w + w := by omega
    _ = (y + 1) * w := by ring
    _ ≤ h * w := Nat.mul_le_mul_right _ hy
    _ = w * h := Nat.mul_comm _ _

theorem OfSize.get {i : Img K} {w h x y : Nat} (hi : OfSize i w h) (hx : x < w) (hy : y < h) :
    ∃ v, i.get x y = some v := by
  obtain ⟨h1, rfl, rfl⟩ := hi
  unfold Img.get
  rw [if_pos ⟨hx, hy⟩]
  have : y * i.w + x < i.data.length := by rw [h1]; exact pixel_lt hx hy
  exact ⟨_, List.getElem?_eq_getElem this⟩

theorem ofFnM_ofSize {w h : Nat} {g : Nat → Nat → Option K} (hg : ∀ x y, x < w → y < h → ∃ v, g x y = some v) :
    ∃ i, Img.ofFnM w h g = some i ∧ OfSize i w h := by
  by_cases hn : Nonempty K
  · obtain ⟨z⟩ := hn
    refine ⟨Img.ofFn w h (fun x y => (g x y).getD z), ofFnM_eq ?_, ?_⟩
    · intro x y hx hy
      obtain ⟨v, hv⟩ := hg x y hx hy
      rw [hv]; rfl
    · obtain ⟨h1, h2, h3, -⟩ := ofFn_shows w h (fun x y => (g x y).getD z)
      exact ⟨h3, h1, h2⟩
  · have h0 : w = 0 ∨ h = 0 := by
      by_contra hc
      push Not at hc
      obtain ⟨v, -⟩ := hg 0 0 (by omega) (by omega)
      exact hn ⟨v⟩
    unfold Img.ofFnM
    rcases h0 with rfl | rfl
    · rw [mapM_some (f := fun _ => []) (by intro y _; rfl)]
      refine ⟨_, rfl, ?_, rfl, rfl⟩
      unfold Img.WF
      simp
    · exact ⟨⟨w, 0, []⟩, rfl, by unfold Img.WF; simp, rfl, rfl⟩

section

variable [Zero K] [Add K] [Mul K]

theorem filterRow_total {kernel row : List K} (hr : 0 < row.length) :
    ∃ out, filterRow kernel row = some out ∧ out.length = row.length := by
  rcases row with _ | ⟨a, row⟩
  · simp at hr
  · unfold filterRow
    rw [List.head?_cons, List.getLast?_cons]
    refine ⟨_, rfl, ?_⟩
    simp only [List.length_append, List.length_take, List.length_map, List.length_replicate]
    omega

omit [Zero K] [Add K] [Mul K] in
theorem mapM_lengths {α : Type _} {g : α → Option (List K)} {n : Nat} : ∀ {l : List α},
    (∀ a ∈ l, ∃ o, g a = some o ∧ o.length = n) → ∃ r, l.mapM g = some r ∧ r.length = l.length ∧ ∀ o ∈ r, o.length = n
  | [], _ => ⟨[], rfl, rfl, by simp⟩
  | a :: l, h => by
    obtain ⟨o, h1, h2⟩ := h a List.mem_cons_self
    obtain ⟨r, h3, h4, h5⟩ := mapM_lengths (fun b hb => h b (List.mem_cons_of_mem _ hb))
    refine ⟨o :: r, ?_, by simp [h4], ?_⟩
    · rw [List.mapM_cons, h1, h3]; rfl
    · intro q hq
      rcases List.mem_cons.1 hq with rfl | hq
      · exact h2
      · exact h5 q hq

theorem horizontalFilter_ofSize {image : Img K} {kernel : List K} {w h : Nat} (hi : OfSize image w h) (hw : 0 < w)
    (hk : kernel.length % 2 = 1) : ∃ out, horizontalFilter image kernel = some out ∧ OfSize out w h := by
  obtain ⟨hwf, rfl, rfl⟩ := hi
  obtain ⟨r, h1, h2, h3⟩ := mapM_lengths (g := filterRow kernel) (n := image.w)
    (l := chunksExact image.w image.data) (by
      intro row hrow
      unfold chunksExact at hrow
      obtain ⟨y, hy, rfl⟩ := List.mem_map.1 hrow
      rw [hwf, Nat.mul_div_cancel_left _ hw, List.mem_range] at hy
      have hlen : ((image.data.drop (y * image.w)).take image.w).length = image.w := by
        rw [List.length_take, List.length_drop, hwf]
        have : (y + 1) * image.w ≤ image.h * image.w := Nat.mul_le_mul_right _ hy
        rw [Nat.add_mul, Nat.one_mul, Nat.mul_comm image.h] at this
        omega
      obtain ⟨out, e, l⟩ := filterRow_total (kernel := kernel) (row := (image.data.drop (y * image.w)).take image.w)
        (by rw [hlen]; exact hw)
      exact ⟨out, e, by rw [l, hlen]⟩)
  refine ⟨⟨image.w, image.h, r.flatten⟩, ?_, ?_, rfl, rfl⟩
  · unfold horizontalFilter
    rw [if_neg (by omega), if_neg (by omega), h1]; rfl
  · unfold Img.WF
    rw [length_flatten_const h3, h2]
    unfold chunksExact
    rw [List.length_map, List.length_range, hwf, Nat.mul_div_cancel_left _ hw]

omit [Zero K] [Add K] [Mul K] in
theorem writeAll_total : ∀ {ws : List (Nat × Option K)} {buf : List K},
    (∀ p ∈ ws, p.1 < buf.length ∧ p.2.isSome) → ∃ buf', writeAll buf ws = some buf' ∧ buf'.length = buf.length
  | [], buf, _ => ⟨buf, rfl, rfl⟩
  | (i, v) :: ws, buf, h => by
    obtain ⟨h1, h2⟩ := h (i, v) List.mem_cons_self
    obtain ⟨u, rfl⟩ := Option.isSome_iff_exists.1 h2
    obtain ⟨b, h3, h4⟩ := writeAll_total (ws := ws) (buf := buf.set i u) (by
      intro p hp
      rw [List.length_set]
      exact h p (List.mem_cons_of_mem _ hp))
    refine ⟨b, ?_, by rw [h4, List.length_set]⟩
    simp only [writeAll]
    rw [if_pos h1]; exact h3

omit [Add K] [Mul K] in
theorem columnWrites_ok {data : List K} {w h half extra xs xe : Nat} (hd : data.length = w * h) (hh : 0 < h)
    (hxe : xe ≤ w) (hx16 : xe ≤ xs + 16) : ∀ p ∈ columnWrites data w h half extra xs xe,
      p.1 < 16 * (h + half * 2 + extra) ∧ p.2.isSome := by
  have hread : ∀ x y, x < w → y < h → (data[y * w + x]?).isSome := by
    intro x y hx hy
    have : y * w + x < data.length := by rw [hd]; exact pixel_lt hx hy
    rw [List.getElem?_eq_getElem this]; rfl
  have hpos : ∀ x o, xs ≤ x → x < xe → o < h + half * 2 + extra →
      (x - xs) * (h + half * 2 + extra) + o < 16 * (h + half * 2 + extra) := by
    intro x o h1 h2 h3
    have : x - xs < 16 := by omega
    have := pixel_lt h3 this
    rw [Nat.mul_comm 16]
    exact this
  intro p hp
  unfold columnWrites at hp
  simp only [List.mem_append, List.mem_flatMap, List.mem_map, List.mem_range'_1, List.mem_range] at hp
  rcases hp with ⟨x, hx, (⟨i, hi, rfl⟩ | ⟨i, hi, rfl⟩) | ⟨i, hi, rfl⟩⟩ | ⟨y, hy, x, hx, rfl⟩
  · refine ⟨hpos x i hx.1 (by omega) (by omega), ?_⟩
    have := hread x 0 (by omega) hh
    simpa using this
  · refine ⟨?_, hread x (h - 1) (by omega) (by omega)⟩
    have := hpos x (half + h + i) hx.1 (by omega) (by omega)
    simpa only [Nat.add_assoc] using this
  · refine ⟨?_, rfl⟩
    have := hpos x (half + h + half + i) hx.1 (by omega) (by omega)
    simpa only [Nat.add_assoc] using this
  · refine ⟨?_, hread x y (by omega) hy⟩
    have := hpos x (y + half) hx.1 (by omega) (by omega)
    simpa only [Nat.add_assoc] using this

theorem outputWrites_ok {scratch kernel : List K} {w h half extra xs xe : Nat} (hk : kernel.length % 2 = 1)
    (hhalf : half = kernel.length / 2) (hextra : extra = simdSize kernel.length - kernel.length)
    (hs : scratch.length = 16 * (h + half * 2 + extra)) (hxe : xe ≤ w) (hx16 : xe ≤ xs + 16) :
    ∀ p ∈ outputWrites scratch kernel w (h + half * 2 + extra) xs xe, p.1 < w * h ∧ p.2.isSome := by
  have hsimd : simdSize kernel.length = kernel.length + 3 := by unfold simdSize; omega
  intro p hp
  unfold outputWrites at hp
  simp only [List.mem_flatMap, List.mem_range, List.mem_map] at hp
  obtain ⟨dx, hdx, q, hq, rfl⟩ := hp
  refine ⟨?_, rfl⟩
  obtain ⟨-, hq', -⟩ := List.mem_zipIdx hq
  rw [List.length_map] at hq'
  unfold windows at hq'
  rw [List.length_map, List.length_range, List.length_take, List.length_drop, hs] at hq'
  have hlen : dx * (h + half * 2 + extra) + (h + half * 2 + extra) ≤ 16 * (h + half * 2 + extra) := by
    rw [← Nat.succ_mul]; exact Nat.mul_le_mul_right _ (by omega)
  have : q.2 < h := by omega
  exact pixel_lt (by omega) this

theorem columnLoop_total {data kernel : List K} {w h half extra : Nat} (hd : data.length = w * h) (hh : 0 < h)
    (hk : kernel.length % 2 = 1) (hhalf : half = kernel.length / 2)
    (hextra : extra = simdSize kernel.length - kernel.length) : ∀ (xs : List Nat) (scratch output : List K),
    scratch.length = 16 * (h + half * 2 + extra) → output.length = w * h →
    ∃ out, columnLoop data kernel w h half extra xs scratch output = some out ∧ out.length = w * h
  | [], _, output, _, ho => ⟨output, rfl, ho⟩
  | x :: xs, scratch, output, hs, ho => by
    obtain ⟨s', e1, l1⟩ := writeAll_total (buf := scratch) (ws := columnWrites data w h half extra x (min (x + 16) w))
      (by rw [hs]; exact columnWrites_ok hd hh (by omega) (by omega))
    obtain ⟨o', e2, l2⟩ := writeAll_total (buf := output)
      (ws := outputWrites s' kernel w (h + half * 2 + extra) x (min (x + 16) w))
      (by rw [ho]; exact outputWrites_ok hk hhalf hextra (by rw [l1, hs]) (by omega) (by omega))
    obtain ⟨out, e3, l3⟩ := columnLoop_total hd hh hk hhalf hextra xs s' o' (by rw [l1, hs]) (by rw [l2, ho])
    refine ⟨out, ?_, l3⟩
    unfold columnLoop
    simp only [if_neg (show ¬ h = 0 by omega), e1, e2, Option.bind_eq_bind, Option.bind_some]
    exact e3

theorem verticalFilter_ofSize {image : Img K} {kernel : List K} {w h : Nat} (hi : OfSize image w h) (hh : 0 < h)
    (hk : kernel.length % 2 = 1) : ∃ out, verticalFilter image kernel = some out ∧ OfSize out w h := by
  obtain ⟨hwf, rfl, rfl⟩ := hi
  obtain ⟨out, e, l⟩ := columnLoop_total (data := image.data) (kernel := kernel) hwf hh hk rfl rfl
    ((List.range ((image.w + 15) / 16)).map (· * 16))
    (List.replicate (16 * (image.h + kernel.length / 2 * 2 + (simdSize kernel.length - kernel.length))) 0)
    (List.replicate (image.w * image.h) 0) (by simp) (by simp)
  refine ⟨⟨image.w, image.h, out⟩, ?_, l, rfl, rfl⟩
  unfold verticalFilter
  simp only []
  rw [if_neg (by omega), e]; rfl

theorem separableFilter_ofSize {image : Img K} {k1 k2 : List K} {w h : Nat} (hi : OfSize image w h) (hw : 0 < w)
    (hh : 0 < h) (h1 : k1.length % 2 = 1) (h2 : k2.length % 2 = 1) :
    ∃ out, separableFilter image k1 k2 = some out ∧ OfSize out w h := by
  obtain ⟨a, e1, s1⟩ := horizontalFilter_ofSize hi hw h1
  obtain ⟨b, e2, s2⟩ := verticalFilter_ofSize s1 hh h2
  refine ⟨b, ?_, s2⟩
  unfold separableFilter
  simp only [e1, Option.bind_eq_bind, Option.bind_some]
  exact e2

end

theorem simpleScharr_ofSize [Zero K] [One K] [Add K] [Mul K] [Neg K] [NatCast K] {image : Img K} {w h : Nat}
    (hi : OfSize image w h) (hw : 0 < w) (hh : 0 < h) :
    (∃ out, simpleScharrHorizontal image = some out ∧ OfSize out w h) ∧
      ∃ out, simpleScharrVertical image = some out ∧ OfSize out w h :=
  ⟨separableFilter_ofSize hi hw hh (by simp) (by simp), separableFilter_ofSize hi hw hh (by simp) (by simp)⟩

theorem halfSize_ofSize [Zero K] [One K] [Add K] [Mul K] [Neg K] [Div K] [NatCast K] {image : Img K} {w h : Nat}
    (hi : OfSize image w h) (hw : 2 ≤ w) (hh : 2 ≤ h) :
    ∃ out, halfSize image = some out ∧ OfSize out (w / 2) (h / 2) := by
  have hi' := hi
  obtain ⟨-, rfl, rfl⟩ := hi'
  unfold halfSize
  simp only []
  rw [if_neg (by omega), if_neg (by omega)]
  refine ofFnM_ofSize ?_
  intro x y hx hy
  have e : ∀ x' y', x' < image.w → y' < image.h → ∃ v, image.get x' y' = some v := fun x' y' h1 h2 => hi.get h1 h2
  split
  · exact e _ _ (by omega) (by omega)
  · split
    · obtain ⟨a, ha⟩ := e (image.w - 1) (2 * y) (by omega) (by omega)
      obtain ⟨b, hb⟩ := e (image.w - 1) (2 * y + 1) (by omega) (by omega)
      exact ⟨_, by simp only [ha, hb, Option.bind_eq_bind, Option.bind_some]; rfl⟩
    · split
      · obtain ⟨a, ha⟩ := e (2 * x) (image.h - 1) (by omega) (by omega)
        obtain ⟨b, hb⟩ := e (2 * x + 1) (image.h - 1) (by omega) (by omega)
        exact ⟨_, by simp only [ha, hb, Option.bind_eq_bind, Option.bind_some]; rfl⟩
      · obtain ⟨a, ha⟩ := e (2 * x) (2 * y) (by omega) (by omega)
        obtain ⟨b, hb⟩ := e (2 * x + 1) (2 * y) (by omega) (by omega)
        obtain ⟨c, hc⟩ := e (2 * x) (2 * y + 1) (by omega) (by omega)
        obtain ⟨d, hd⟩ := e (2 * x + 1) (2 * y + 1) (by omega) (by omega)
        exact ⟨_, by simp only [ha, hb, hc, hd, Option.bind_eq_bind, Option.bind_some]; rfl⟩

section

variable [One K] [Add K] [Sub K] [Mul K] [Div K] [NatCast K]

theorem calculateStep_ofSize {lt flow : Img K} {w h : Nat} (hl : OfSize lt w h) (hf : OfSize flow w h) (hw : 0 < w)
    (hh : 0 < h) (step : K) : ∃ out, calculateStep lt flow step = some out ∧ OfSize out w h := by
  have hl' := hl
  have hf' := hf
  obtain ⟨-, lw, lh⟩ := hl'
  obtain ⟨-, fw, fh⟩ := hf'
  obtain ⟨hfl, e1, s1⟩ : ∃ o, horizontalFlow lt flow step = some o ∧ OfSize o (w - 1) h := by
    unfold horizontalFlow
    rw [lw, lh]
    refine ofFnM_ofSize (fun x y hx hy => ?_)
    obtain ⟨a, ha⟩ := hl.get (x := x) (y := y) (by omega) hy
    obtain ⟨b, hb⟩ := hl.get (x := x + 1) (y := y) (by omega) hy
    obtain ⟨c, hc⟩ := hf.get (x := x) (y := y) (by omega) hy
    obtain ⟨d, hd⟩ := hf.get (x := x + 1) (y := y) (by omega) hy
    exact ⟨_, by simp only [ha, hb, hc, hd, Option.bind_eq_bind, Option.bind_some]; rfl⟩
  obtain ⟨vfl, e2, s2⟩ : ∃ o, verticalFlow lt flow step = some o ∧ OfSize o w (h - 1) := by
    unfold verticalFlow
    rw [lw, lh]
    refine ofFnM_ofSize (fun x y hx hy => ?_)
    obtain ⟨a, ha⟩ := hl.get (x := x) (y := y) (by omega) (by omega)
    obtain ⟨b, hb⟩ := hl.get (x := x) (y := y + 1) (by omega) (by omega)
    obtain ⟨c, hc⟩ := hf.get (x := x) (y := y) (by omega) (by omega)
    obtain ⟨d, hd⟩ := hf.get (x := x) (y := y + 1) (by omega) (by omega)
    exact ⟨_, by simp only [ha, hb, hc, hd, Option.bind_eq_bind, Option.bind_some]; rfl⟩
  obtain ⟨a, e3, s3⟩ : ∃ o, addLeft lt hfl = some o ∧ OfSize o w h := by
    unfold addLeft
    rw [lw, lh]
    refine ofFnM_ofSize (fun x y hx hy => ?_)
    obtain ⟨a, ha⟩ := hl.get (x := x) (y := y) (by omega) (by omega)
    simp only [ha, Option.bind_eq_bind, Option.bind_some]
    split
    · obtain ⟨b, hb⟩ := s1.get (x := x) (y := y) (by omega) (by omega)
      exact ⟨_, by rw [hb]; rfl⟩
    · exact ⟨_, rfl⟩
  obtain ⟨b, e4, s4⟩ : ∃ o, subRight a hfl = some o ∧ OfSize o w h := by
    unfold subRight
    rw [s3.2.1, s3.2.2]
    refine ofFnM_ofSize (fun x y hx hy => ?_)
    obtain ⟨a, ha⟩ := s3.get (x := x) (y := y) (by omega) (by omega)
    simp only [ha, Option.bind_eq_bind, Option.bind_some]
    split
    · obtain ⟨b, hb⟩ := s1.get (x := x - 1) (y := y) (by omega) (by omega)
      exact ⟨_, by rw [hb]; rfl⟩
    · exact ⟨_, rfl⟩
  obtain ⟨c, e5, s5⟩ : ∃ o, addUp b vfl = some o ∧ OfSize o w h := by
    unfold addUp
    rw [s4.2.1, s4.2.2]
    refine ofFnM_ofSize (fun x y hx hy => ?_)
    obtain ⟨a, ha⟩ := s4.get (x := x) (y := y) (by omega) (by omega)
    simp only [ha, Option.bind_eq_bind, Option.bind_some]
    split
    · obtain ⟨b, hb⟩ := s2.get (x := x) (y := y) (by omega) (by omega)
      exact ⟨_, by rw [hb]; rfl⟩
    · exact ⟨_, rfl⟩
  obtain ⟨d, e6, s6⟩ : ∃ o, subDown c vfl = some o ∧ OfSize o w h := by
    unfold subDown
    rw [s5.2.1, s5.2.2]
    refine ofFnM_ofSize (fun x y hx hy => ?_)
    obtain ⟨a, ha⟩ := s5.get (x := x) (y := y) (by omega) (by omega)
    simp only [ha, Option.bind_eq_bind, Option.bind_some]
    split
    · obtain ⟨b, hb⟩ := s2.get (x := x) (y := y - 1) (by omega) (by omega)
      exact ⟨_, by rw [hb]; rfl⟩
    · exact ⟨_, rfl⟩
  refine ⟨d, ?_, s6⟩
  unfold calculateStep
  rw [if_neg (by omega), if_neg (by rw [fw, fh, lw, lh]; simp)]
  simp only [e1, e2, e3, e4, e5, Option.bind_eq_bind, Option.bind_some]
  exact e6

theorem diffuse_ofSize {flow : Img K} {w h : Nat} (hf : OfSize flow w h) (hw : 0 < w) (hh : 0 < h) :
    ∀ (steps : List K) {lt : Img K}, OfSize lt w h → ∃ out, diffuse lt flow steps = some out ∧ OfSize out w h
  | [], lt, hl => ⟨lt, rfl, hl⟩
  | s :: steps, lt, hl => by
    obtain ⟨a, e1, s1⟩ := calculateStep_ofSize hl hf hw hh s
    obtain ⟨b, e2, s2⟩ := diffuse_ofSize hf hw hh steps s1
    refine ⟨b, ?_, s2⟩
    unfold diffuse
    simp only [e1, Option.bind_eq_bind, Option.bind_some]
    exact e2

end

end Verif.Akaze
