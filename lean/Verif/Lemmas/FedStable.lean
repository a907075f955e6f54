import Verif.Lemmas.Spectral
import Verif.Lemmas.FedSum
import Verif.Lemmas.Diffusion

/-!
# One cycle of fast explicit diffusion as a linear operator
-/

namespace Verif.Akaze

open scoped InnerProductSpace

/-- The conductivity between two neighbours of a line. -/
noncomputable def edge (c : Nat → ℝ) (x : Nat) : ℝ := 1 / 2 * (c x + c (x + 1))

/-- Flow along a line, against another line of numbers. -/
theorem line_form (n : Nat) (f g c : Nat → ℝ) :
    ∑ x ∈ Finset.range n, (flowFwd 1 n f c x - flowBack 1 f c x) * g x =
      -∑ x ∈ Finset.range (n - 1), edge c x * (f (x + 1) - f x) * (g (x + 1) - g x) := by
  cases n with
  | zero => simp
  | succ n =>
    simp only [sub_mul, Finset.sum_sub_distrib, Nat.add_sub_cancel]
    rw [Finset.sum_range_succ, Finset.sum_range_succ' (fun x => flowBack 1 f c x * g x)]
    have h1 : flowFwd 1 (n + 1) f c n = 0 := by unfold flowFwd; rw [if_neg (by omega)]
    have h2 : flowBack 1 f c 0 = 0 := by unfold flowBack; rw [if_neg (by omega)]
    rw [h1, h2, zero_mul, add_zero, zero_mul, add_zero, ← Finset.sum_sub_distrib, ← Finset.sum_neg_distrib]
    refine Finset.sum_congr rfl (fun x hx => ?_)
    rw [Finset.mem_range] at hx
    unfold flowFwd flowBack edge flowBetween
    rw [if_pos (by omega), if_pos (by omega), Nat.add_sub_cancel]
    ring

theorem line_bound (n : Nat) (f c : Nat → ℝ) (hc : ∀ x, x < n → 0 ≤ c x ∧ c x ≤ 1) :
    0 ≤ ∑ x ∈ Finset.range (n - 1), edge c x * (f (x + 1) - f x) * (f (x + 1) - f x) ∧
    ∑ x ∈ Finset.range (n - 1), edge c x * (f (x + 1) - f x) * (f (x + 1) - f x) ≤
      4 * ∑ x ∈ Finset.range n, f x ^ 2 := by
  have he : ∀ x ∈ Finset.range (n - 1), 0 ≤ edge c x ∧ edge c x ≤ 1 := by
    intro x hx
    rw [Finset.mem_range] at hx
    have h1 := hc x (by omega)
    have h2 := hc (x + 1) (by omega)
    unfold edge
    constructor <;> linarith [h1.1, h1.2, h2.1, h2.2]
  constructor
  · refine Finset.sum_nonneg (fun x hx => ?_)
    rw [mul_assoc]
    exact mul_nonneg (he x hx).1 (mul_self_nonneg _)
  · have h1 : ∑ x ∈ Finset.range (n - 1), edge c x * (f (x + 1) - f x) * (f (x + 1) - f x) ≤
        ∑ x ∈ Finset.range (n - 1), (2 * f x ^ 2 + 2 * f (x + 1) ^ 2) := by
      refine Finset.sum_le_sum (fun x hx => ?_)
      have := he x hx
      have hsq := mul_self_nonneg (f (x + 1) - f x)
      have h2 : edge c x * ((f (x + 1) - f x) * (f (x + 1) - f x)) ≤ 1 * ((f (x + 1) - f x) * (f (x + 1) - f x)) :=
        mul_le_mul_of_nonneg_right this.2 hsq
      nlinarith [mul_self_nonneg (f (x + 1) + f x)]
    refine h1.trans ?_
    rw [Finset.sum_add_distrib, ← Finset.mul_sum, ← Finset.mul_sum]
    cases n with
    | zero => simp
    | succ n =>
      simp only [Nat.add_sub_cancel]
      have a := Finset.sum_range_succ (fun x => f x ^ 2) n
      have b := Finset.sum_range_succ' (fun x => f x ^ 2) n
      have := sq_nonneg (f n)
      have := sq_nonneg (f 0)
      linarith

theorem flowFwd_scale (s : ℝ) (n : Nat) (f c : Nat → ℝ) (x : Nat) : flowFwd s n f c x = s * flowFwd 1 n f c x := by
  unfold flowFwd flowBetween; split <;> ring

theorem flowBack_scale (s : ℝ) (f c : Nat → ℝ) (x : Nat) : flowBack s f c x = s * flowBack 1 f c x := by
  unfold flowBack flowBetween; split <;> ring

/-- The rate of change of a pixel. -/
noncomputable def rate (w h : Nat) (c f : Nat → Nat → ℝ) (x y : Nat) : ℝ :=
  (flowFwd 1 w (fun x => f x y) (fun x => c x y) x - flowBack 1 (fun x => f x y) (fun x => c x y) x) +
    (flowFwd 1 h (f x) (c x) y - flowBack 1 (f x) (c x) y)

theorem step_rate (s : ℝ) (w h : Nat) (f c : Nat → Nat → ℝ) (x y : Nat) :
    stepPixel s w h f c x y = f x y + s * rate w h c f x y := by
  unfold stepPixel rate
  rw [flowFwd_scale, flowBack_scale, flowFwd_scale s h, flowBack_scale s (f x)]
  ring

theorem rate_congr {w h : Nat} {c f g : Nat → Nat → ℝ} (hfg : ∀ x y, x < w → y < h → f x y = g x y) {x y : Nat}
    (hx : x < w) (hy : y < h) : rate w h c f x y = rate w h c g x y := by
  have e1 : flowFwd 1 w (fun x => f x y) (fun x => c x y) x = flowFwd 1 w (fun x => g x y) (fun x => c x y) x := by
    unfold flowFwd; split
    · simp only [hfg x y hx hy, hfg (x + 1) y (by assumption) hy]
    · rfl
  have e2 : flowBack 1 (fun x => f x y) (fun x => c x y) x = flowBack 1 (fun x => g x y) (fun x => c x y) x := by
    unfold flowBack; split
    · simp only [hfg x y hx hy, hfg (x - 1) y (by omega) hy]
    · rfl
  have e3 : flowFwd 1 h (f x) (c x) y = flowFwd 1 h (g x) (c x) y := by
    unfold flowFwd; split
    · simp only [hfg x y hx hy, hfg x (y + 1) hx (by assumption)]
    · rfl
  have e4 : flowBack 1 (f x) (c x) y = flowBack 1 (g x) (c x) y := by
    unfold flowBack; split
    · simp only [hfg x y hx hy, hfg x (y - 1) hx (by omega)]
    · rfl
  unfold rate
  rw [e1, e2, e3, e4]

theorem rate_add (w h : Nat) (c f g : Nat → Nat → ℝ) (x y : Nat) :
    rate w h c (fun x y => f x y + g x y) x y = rate w h c f x y + rate w h c g x y := by
  unfold rate flowFwd flowBack flowBetween
  split_ifs <;> ring

theorem rate_smul (w h : Nat) (c f : Nat → Nat → ℝ) (a : ℝ) (x y : Nat) :
    rate w h c (fun x y => a * f x y) x y = a * rate w h c f x y := by
  unfold rate flowFwd flowBack flowBetween
  split_ifs <;> ring

/-- Sums over all pixels. -/
noncomputable def dot (w h : Nat) (f g : Nat → Nat → ℝ) : ℝ :=
  ∑ y ∈ Finset.range h, ∑ x ∈ Finset.range w, f x y * g x y

/-- The energy of two images. -/
noncomputable def energy (w h : Nat) (c f g : Nat → Nat → ℝ) : ℝ :=
  (∑ y ∈ Finset.range h, ∑ x ∈ Finset.range (w - 1),
      edge (fun x => c x y) x * (f (x + 1) y - f x y) * (g (x + 1) y - g x y)) +
    ∑ x ∈ Finset.range w, ∑ y ∈ Finset.range (h - 1),
      edge (c x) y * (f x (y + 1) - f x y) * (g x (y + 1) - g x y)

theorem dot_rate (w h : Nat) (c f g : Nat → Nat → ℝ) : dot w h (rate w h c f) g = -energy w h c f g := by
  unfold dot rate energy
  simp only [add_mul, Finset.sum_add_distrib]
  rw [neg_add]
  congr 1
  · rw [← Finset.sum_neg_distrib]
    exact Finset.sum_congr rfl (fun y _ => line_form w (fun x => f x y) (fun x => g x y) (fun x => c x y))
  · rw [Finset.sum_comm, ← Finset.sum_neg_distrib]
    exact Finset.sum_congr rfl (fun x _ => line_form h (f x) (g x) (c x))

theorem energy_symm (w h : Nat) (c f g : Nat → Nat → ℝ) : energy w h c f g = energy w h c g f := by
  unfold energy
  congr 1 <;> refine Finset.sum_congr rfl (fun _ _ => Finset.sum_congr rfl (fun _ _ => ?_)) <;> ring

theorem energy_bounds {w h : Nat} {c : Nat → Nat → ℝ} (hc : ∀ x y, x < w → y < h → 0 ≤ c x y ∧ c x y ≤ 1)
    (f : Nat → Nat → ℝ) : 0 ≤ energy w h c f f ∧ energy w h c f f ≤ 8 * dot w h f f := by
  have hx := fun y (hy : y ∈ Finset.range h) => line_bound w (fun x => f x y) (fun x => c x y)
    (fun x hx => hc x y hx (Finset.mem_range.mp hy))
  have hy := fun x (hx : x ∈ Finset.range w) => line_bound h (f x) (c x)
    (fun y hy => hc x y (Finset.mem_range.mp hx) hy)
  unfold energy dot
  constructor
  · exact add_nonneg (Finset.sum_nonneg (fun y h => (hx y h).1)) (Finset.sum_nonneg (fun x h => (hy x h).1))
  · have h1 := Finset.sum_le_sum (fun y h => (hx y h).2)
    have h2 := Finset.sum_le_sum (fun x h => (hy x h).2)
    rw [← Finset.mul_sum] at h1 h2
    have h3 := Finset.sum_comm (s := Finset.range w) (t := Finset.range h) (f := fun x y => f x y ^ 2)
    rw [h3] at h2
    simp only [pow_two] at h1 h2
    linarith

/-! ## The space of images -/

/-- Images of a fixed size as vectors. -/
abbrev Pix (w h : Nat) := EuclideanSpace ℝ (Fin h × Fin w)

noncomputable def toPix (w h : Nat) (f : Nat → Nat → ℝ) : Pix w h :=
  WithLp.toLp 2 (fun p => f p.2 p.1)

noncomputable def ofPix {w h : Nat} (v : Pix w h) (x y : Nat) : ℝ :=
  if hx : x < w then if hy : y < h then v (⟨y, hy⟩, ⟨x, hx⟩) else 0 else 0

theorem toPix_apply {w h : Nat} (f : Nat → Nat → ℝ) (p : Fin h × Fin w) : toPix w h f p = f p.2 p.1 := rfl

theorem ofPix_apply {w h : Nat} (v : Pix w h) (p : Fin h × Fin w) : ofPix v p.2 p.1 = v p := by
  unfold ofPix
  rw [dif_pos p.2.2, dif_pos p.1.2]

theorem ofPix_toPix {w h : Nat} (f : Nat → Nat → ℝ) {x y : Nat} (hx : x < w) (hy : y < h) :
    ofPix (toPix w h f) x y = f x y := by
  unfold ofPix
  rw [dif_pos hx, dif_pos hy]
  rfl

theorem toPix_congr {w h : Nat} {f g : Nat → Nat → ℝ} (hfg : ∀ x y, x < w → y < h → f x y = g x y) :
    toPix w h f = toPix w h g := by
  ext p
  exact hfg _ _ p.2.2 p.1.2

theorem inner_pix {w h : Nat} (u v : Pix w h) : ⟪u, v⟫_ℝ = dot w h (ofPix u) (ofPix v) := by
  unfold dot
  rw [PiLp.inner_apply, Fintype.sum_prod_type, Finset.sum_range]
  refine Finset.sum_congr rfl (fun y _ => ?_)
  rw [Finset.sum_range]
  refine Finset.sum_congr rfl (fun x _ => ?_)
  have e := fun v : Pix w h => ofPix_apply v (y, x)
  simp only at e
  rw [e, e]
  simp [mul_comm]

/-- The rate of change as a linear operator. -/
noncomputable def rateOp (w h : Nat) (c : Nat → Nat → ℝ) : Pix w h →ₗ[ℝ] Pix w h where
  toFun v := toPix w h (rate w h c (ofPix v))
  map_add' u v := by
    ext p
    rw [PiLp.add_apply]
    simp only [toPix_apply]
    rw [← rate_add]
    refine rate_congr ?_ p.2.2 p.1.2
    intro x y hx hy
    simp [ofPix, hx, hy]
  map_smul' a v := by
    ext p
    rw [RingHom.id_apply, PiLp.smul_apply]
    simp only [toPix_apply, smul_eq_mul]
    rw [← rate_smul]
    refine rate_congr ?_ p.2.2 p.1.2
    intro x y hx hy
    simp [ofPix, hx, hy]

theorem dot_congr {w h : Nat} {f f' g g' : Nat → Nat → ℝ} (hf : ∀ x y, x < w → y < h → f x y = f' x y)
    (hg : ∀ x y, x < w → y < h → g x y = g' x y) : dot w h f g = dot w h f' g' := by
  unfold dot
  refine Finset.sum_congr rfl (fun y hy => Finset.sum_congr rfl (fun x hx => ?_))
  rw [hf x y (Finset.mem_range.mp hx) (Finset.mem_range.mp hy), hg x y (Finset.mem_range.mp hx) (Finset.mem_range.mp hy)]

theorem inner_rateOp {w h : Nat} (c : Nat → Nat → ℝ) (u v : Pix w h) :
    ⟪rateOp w h c u, v⟫_ℝ = -energy w h c (ofPix u) (ofPix v) := by
  rw [inner_pix, ← dot_rate]
  exact dot_congr (fun x y hx hy => ofPix_toPix _ hx hy) (fun _ _ _ _ => rfl)

theorem rateOp_symm (w h : Nat) (c : Nat → Nat → ℝ) : (rateOp w h c).IsSymmetric := by
  intro u v
  rw [inner_rateOp, real_inner_comm, inner_rateOp, energy_symm]

theorem norm_sq_pix {w h : Nat} (v : Pix w h) : ‖v‖ ^ 2 = dot w h (ofPix v) (ofPix v) := by
  rw [← real_inner_self_eq_norm_sq, inner_pix]

theorem steps_pix {w h : Nat} (c : Nat → Nat → ℝ) : ∀ (steps : List ℝ) (f : Nat → Nat → ℝ),
    toPix w h (steps.foldl (fun f s => stepPixel s w h f c) f) =
      steps.foldl (fun v s => v + s • rateOp w h c v) (toPix w h f) := by
  intro steps
  induction steps with
  | nil => intro f; rfl
  | cons s steps ih =>
    intro f
    rw [List.foldl_cons, List.foldl_cons, ih]
    congr 1
    ext p
    rw [PiLp.add_apply, PiLp.smul_apply, toPix_apply, toPix_apply, step_rate]
    congr 1
    change _ = s * rate w h c (ofPix (toPix w h f)) p.2 p.1
    rw [rate_congr (fun x y hx hy => ofPix_toPix f hx hy) p.2.2 p.1.2]

end Verif.Akaze
