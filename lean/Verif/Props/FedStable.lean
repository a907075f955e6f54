import Verif.Lemmas.FedStable
import Verif.Props.Fed
import Verif.Props.Diffusion

/-!
# C71: one cycle of fast explicit diffusion is stable

Single steps of a cycle are larger than the quarter that C27 asks for. The cycle as a whole is stable in the mean
square all the same.
-/

namespace Verif.Akaze

open scoped InnerProductSpace

/-- The sum of the squared differences of two images. -/
noncomputable def sqDist (w h : Nat) (f g : Nat → Nat → ℝ) : ℝ :=
  ∑ y ∈ Finset.range h, ∑ x ∈ Finset.range w, (f x y - g x y) ^ 2

theorem diffuse_steps {w h : Nat} {c : Nat → Nat → ℝ} {flow : Img ℝ} (hc : flow.Shows w h c) (hw : 0 < w)
    (hh : 0 < h) : ∀ (steps : List ℝ) {lt : Img ℝ} {f : Nat → Nat → ℝ}, lt.Shows w h f →
      ∃ out, diffuse lt flow steps = some out ∧ out.Shows w h (steps.foldl (fun f s => stepPixel s w h f c) f) := by
  intro steps
  induction steps with
  | nil => intro lt f hl; exact ⟨lt, rfl, hl⟩
  | cons s steps ih =>
    intro lt f hl
    obtain ⟨o, e, so⟩ := step_shows hl hc hw hh s
    obtain ⟨out, e', s'⟩ := ih so
    refine ⟨out, ?_, s'⟩
    rw [diffuse, e]
    exact e'

theorem steps_sub {w h : Nat} (c : Nat → Nat → ℝ) : ∀ (steps : List ℝ) (u v : Pix w h),
    steps.foldl (fun v s => v + s • rateOp w h c v) u - steps.foldl (fun v s => v + s • rateOp w h c v) v =
      steps.foldl (fun v s => v + s • rateOp w h c v) (u - v) := by
  intro steps
  induction steps with
  | nil => intro u v; rfl
  | cons s steps ih =>
    intro u v
    rw [List.foldl_cons, List.foldl_cons, List.foldl_cons, ih]
    congr 1
    rw [map_sub, smul_sub]
    abel

theorem sqDist_norm {w h : Nat} (f g : Nat → Nat → ℝ) : sqDist w h f g = ‖toPix w h f - toPix w h g‖ ^ 2 := by
  rw [norm_sq_pix]
  unfold sqDist dot
  refine Finset.sum_congr rfl (fun y hy => Finset.sum_congr rfl (fun x hx => ?_))
  rw [Finset.mem_range] at hx hy
  have : ofPix (toPix w h f - toPix w h g) x y = f x y - g x y := by
    unfold ofPix
    rw [dif_pos hx, dif_pos hy, PiLp.sub_apply]
    rfl
  rw [this, pow_two]

theorem cycle_damps {T : ℝ} (hT : 0 < T) (hT' : T ≤ 10 ^ 12) {r : Bool} {l : List ℝ}
    (h : fedByProcessTime T 1 (1 / 4) r = some l) {m : ℝ} (h0 : 0 ≤ m) (h8 : m ≤ 8) :
    |(l.map (fun s => 1 - s * m)).prod| ≤ 1 := by
  by_cases hl : l = []
  · subst hl; simp
  obtain ⟨c1, c2⟩ := C22_least_steps (by norm_num) hT (by norm_num) h hl
  have hp := cycle_result h
  have hlen : l.length = stepCount (T / (1 : Int)) (1 / 4) := by rw [hp.length_eq]; simp
  rw [← hlen] at hp
  have hn : 1 ≤ l.length := List.length_pos_iff.mpr hl
  generalize l.length = n at hp hn c1 c2
  rw [(hp.map _).prod_eq]
  rw [Int.cast_one, div_one] at c1 c2 hp ⊢
  have hn' : (1 : ℝ) ≤ n := by exact_mod_cast hn
  have hn7 : (n : ℝ) ≤ 10 ^ 7 := by
    by_contra hc
    rw [not_le] at hc
    nlinarith
  have hs0 : 0 ≤ 3 * T / (1 / 4 * (n * (n + 1) : Nat)) := by positivity
  have hs : 3 * T / (1 / 4 * (n * (n + 1) : Nat)) * (n * (n + 1)) ≤
      n * (n + 1) + (2 * n + 1) / 10 ^ 8 + 1 / 10 ^ 16 := by
    push_cast
    have : 3 * T / (1 / 4 * ((n : ℝ) * (n + 1))) * (n * (n + 1)) = 12 * T := by field_simp; norm_num
    rw [this]
    nlinarith
  generalize 3 * T / (1 / 4 * (n * (n + 1) : Nat)) = s at *
  have key : |∏ k ∈ Finset.range n, (1 - s * m / 8 / root n k)| ≤ 1 := by
    have hy0 : 0 ≤ s * m / 8 := by positivity
    by_cases hy : s * m / 8 ≤ 1
    · exact prod_bound n hy0 hy
    · rw [not_le] at hy
      have he : s * m / 8 = 1 + (s * m / 8 - 1) := by ring
      rw [he]
      have hle : s * m / 8 - 1 ≤ s - 1 := by nlinarith
      refine prod_bound_above n hn (by linarith) ?_
      have h1 : (2 * (n : ℝ) + 1) ^ 2 ≤ 9 / 2 * (n * (n + 1)) := by nlinarith
      have h2 : (2 * (n : ℝ) + 1) ^ 2 * (s * m / 8 - 1) ≤ 9 / 2 * (n * (n + 1)) * (s * m / 8 - 1) :=
        mul_le_mul_of_nonneg_right h1 (by linarith)
      have h3 : 9 / 2 * ((n : ℝ) * (n + 1)) * (s * m / 8 - 1) ≤ 9 / 2 * (n * (n + 1)) * (s - 1) :=
        mul_le_mul_of_nonneg_left hle (by positivity)
      linarith
  have e : (((List.range n).map (tauStep n s (1 / 4))).map (fun t => 1 - t * m)).prod =
      ∏ k ∈ Finset.range n, (1 - s * m / 8 / root n k) := by
    rw [List.map_map, Finset.prod_range, ← List.prod_ofFn, List.ofFn_eq_map, ← List.map_coe_finRange_eq_range,
      List.map_map]
    congr 1
    refine List.map_congr_left (fun k _ => ?_)
    simp only [Function.comp, tauStep, root]
    ring
  rw [e]
  exact key

/-- **C71.** Let the steps of one cycle, in either order, be those returned for any time up to `10^12` (beyond, the
slack of `1e-8` in the number of steps could matter), and let all conductivities lie between 0 and 1. Then running the cycle on two images never increases the
distance of the two in the mean square, although single steps may. -/
theorem C71_nonexpansive {T : ℝ} (hT : 0 < T) (hT' : T ≤ 10 ^ 12) {r : Bool} {l : List ℝ}
    (h : fedByProcessTime T 1 (1 / 4) r = some l)
    {a b flow : Img ℝ} {w ht : Nat} {f g c : Nat → Nat → ℝ} (ha : a.Shows w ht f) (hb : b.Shows w ht g)
    (hc : flow.Shows w ht c) (hw : 0 < w) (hh : 0 < ht)
    (hcond : ∀ x y, x < w → y < ht → 0 ≤ c x y ∧ c x y ≤ 1) :
    ∃ a' b' f' g', diffuse a flow l = some a' ∧ diffuse b flow l = some b' ∧ a'.Shows w ht f' ∧
      b'.Shows w ht g' ∧ sqDist w ht f' g' ≤ sqDist w ht f g := by
  obtain ⟨a', ea, sa⟩ := diffuse_steps hc hw hh l ha
  obtain ⟨b', eb, sb⟩ := diffuse_steps hc hw hh l hb
  refine ⟨a', b', _, _, ea, eb, sa, sb, ?_⟩
  rw [sqDist_norm, sqDist_norm, steps_pix, steps_pix, steps_sub]
  refine pow_le_pow_left₀ (norm_nonneg _) ?_ 2
  refine cycle_norm (rateOp_symm w ht c) (L := 8) ?_ ?_ (fun m h0 h8 => cycle_damps hT hT' h h0 h8) _
  · intro v
    rw [inner_rateOp]
    linarith [(energy_bounds hcond (ofPix v)).1]
  · intro v
    rw [inner_rateOp, norm_sq_pix]
    linarith [(energy_bounds hcond (ofPix v)).2]

/-- **C71, contrast.** The cycle never increases the squared deviation from any grey value, in particular not the
variance. -/
theorem C71_variance {T : ℝ} (hT : 0 < T) (hT' : T ≤ 10 ^ 12) {r : Bool} {l : List ℝ}
    (h : fedByProcessTime T 1 (1 / 4) r = some l)
    {a flow : Img ℝ} {w ht : Nat} {f c : Nat → Nat → ℝ} (ha : a.Shows w ht f)
    (hc : flow.Shows w ht c) (hw : 0 < w) (hh : 0 < ht)
    (hcond : ∀ x y, x < w → y < ht → 0 ≤ c x y ∧ c x y ≤ 1) (v : ℝ) :
    ∃ a' f', diffuse a flow l = some a' ∧ a'.Shows w ht f' ∧
      ∑ y ∈ Finset.range ht, ∑ x ∈ Finset.range w, (f' x y - v) ^ 2 ≤
        ∑ y ∈ Finset.range ht, ∑ x ∈ Finset.range w, (f x y - v) ^ 2 := by
  have hb : (Img.ofFn w ht (fun _ _ => v)).Shows w ht (fun _ _ => v) := ofFn_shows w ht _
  obtain ⟨a', b', f', g', ea, eb, sa, sb, hd⟩ := C71_nonexpansive hT hT' h ha hb hc hw hh hcond
  have flat : ∀ l : List ℝ, diffuse (Img.ofFn w ht (fun _ _ => v)) flow l = some (Img.ofFn w ht (fun _ _ => v)) := by
    intro l
    induction l with
    | nil => rfl
    | cons s l ih => rw [diffuse, C26_flat hb hc hw hh s]; exact ih
  rw [flat l] at eb
  obtain rfl := Option.some.inj eb
  refine ⟨a', f', ea, sa, ?_⟩
  unfold sqDist at hd
  have hg : ∀ x y, x < w → y < ht → g' x y = v := by
    intro x y hx hy
    have h1 := sb.2.2.2 x y hx hy
    rw [hb.2.2.2 x y hx hy] at h1
    exact (Option.some.inj h1).symm
  refine le_of_eq_of_le (Finset.sum_congr rfl (fun y hy => Finset.sum_congr rfl (fun x hx => ?_))) hd
  rw [hg x y (Finset.mem_range.mp hx) (Finset.mem_range.mp hy)]

/-- **C71, single steps do overshoot.** Two steps are taken for the time one half. The larger of the two is above a quarter: the limit that C27 needs is exceeded, so C71 does not follow from
it. -/
theorem C71_step_above_limit : ∃ l, fedByProcessTime (1 / 2) 1 (1 / 4) true = some l ∧
    l.length = 2 ∧ ∃ s ∈ l, 1 / 4 < s := by
  have hs : stepCount (1 / 2 / ((1 : Int) : ℝ)) (1 / 4) = 2 := by
    rw [Int.cast_one, div_one]
    refine stepCount_eq ?_ ?_
    · have : (2.4 : ℝ) < Real.sqrt (3 * (1 / 2) / (1 / 4) + 1 / 4) := by
        rw [Real.lt_sqrt (by norm_num)]; norm_num
      norm_num at this ⊢
      linarith
    · have : Real.sqrt (3 * (1 / 2) / (1 / 4) + 1 / 4) ≤ 2.5 := by
        rw [Real.sqrt_le_iff]; norm_num
      norm_num at this ⊢
      linarith
  obtain ⟨l, h1, h2⟩ := reordered_perm (n := 2) (by norm_num)
    (3 * (1 / 2 / ((1 : Int) : ℝ)) / (1 / 4 * (2 * (2 + 1) : Nat))) (1 / 4)
  have hlen : l.length = 2 := by rw [h2.length_eq]; simp
  have he : fedByProcessTime (1 / 2) 1 (1 / 4) true = some l := by
    simp only [fedByProcessTime, fedByCycleTime, hs]; exact h1
  refine ⟨l, he, hlen, ?_⟩
  refine ⟨_, h2.symm.subset (List.mem_map.mpr ⟨1, by simp, rfl⟩), ?_⟩
  simp only [tauStep]
  have hpi := Real.pi_pos
  have harg : Real.pi * (2 * ((1 : Nat) : ℝ) + 1) * (1 / (4 * ((2 : Nat) : ℝ) + 2)) = 3 * Real.pi / 10 := by
    push_cast; ring
  rw [harg]
  have h0 : 0 < Real.cos (3 * Real.pi / 10) :=
    Real.cos_pos_of_mem_Ioo ⟨by linarith, by linarith⟩
  have h1 : Real.cos (3 * Real.pi / 10) < Real.cos (Real.pi / 4) :=
    Real.cos_lt_cos_of_nonneg_of_le_pi (by linarith) (by linarith) (by linarith)
  have h3 : Real.cos (3 * Real.pi / 10) * Real.cos (3 * Real.pi / 10) < 1 / 2 := by
    have h4 : Real.cos (Real.pi / 4) * Real.cos (Real.pi / 4) = 1 / 2 := by
      rw [Real.cos_pi_div_four]
      have := Real.mul_self_sqrt (show (0 : ℝ) ≤ 2 by norm_num)
      linarith
    nlinarith
  rw [lt_div_iff₀ (by positivity)]
  norm_num
  linarith

end Verif.Akaze
