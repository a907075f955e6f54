import Verif.Lemmas.FloatRounding
import Verif.Model.SfmFilter
import Verif.Model.Essential
import Verif.Props.FloatPinholeExample

/-!
# C111: residuals and acceptance tests are those of exact arithmetic, up to rounding
-/

namespace Verif.Geo.Rounded

open Verif.Akaze
open Verif.Bicubic (Flt)
open Verif.Akaze.FloatOps (lt)
open P3P (fdot)

variable {D : Type} [FloatOps D] [FloatBits D] {J : Ieee D} {u η M : ℝ}

/-- **C111** The residual of a pose for a match of a bearing with a world point is a number within `64 u κ` of the exact
residual, where `κ` is the sum of the distances of the point and of the camera from the origin, over the distance between
them. -/
theorem C111_world (A : Accurate J u η M) (B : IeeeBits J) {p : Iso D} {b : V3 D} {w : V4 D} {P : Iso ℝ} {Y : V3 ℝ}
    {W : V4 ℝ} {r κ : ℝ} (hp : HasIso J p P) (hb : HasV J b Y) (hw : Has4 J w W) (S : InSight P W r κ)
    (E : Fine u η M r κ) (hY : Y.norm ≤ 101 / 100) :
    ∃ z x, J.val (fworldResidual p b w) = .num z ∧ worldResidual P Y W = some x ∧ |z - x| ≤ 64 * (u * κ) := by
  obtain ⟨d, q, hd, hq, hn, e1, e2, e3⟩ := transform_error A B hp hw S E
  have huκ : u ≤ u * κ := by nlinarith [E.one_le, A.u_nonneg]
  obtain ⟨⟨z, hz, ez⟩, -⟩ := cosine_error A hb hd huκ E.precise E.tiny E.range hY hn e1 e2 e3
  refine ⟨z, _, hz, ?_, ez⟩
  unfold worldResidual
  rw [hq]
  rfl

/-- **C111** The cosine distance between an observation and a point is a number within `64 u κ` of the exact one. -/
theorem C111_distance (A : Accurate J u η M) (B : IeeeBits J) {o : FObservation D} {w : V4 D} {P : Iso ℝ} {Y : V3 ℝ}
    {W : V4 ℝ} {r κ : ℝ} (hp : HasIso J o.pose P) (hb : HasV J o.bearing Y) (hw : Has4 J w W) (S : InSight P W r κ)
    (E : Fine u η M r κ) (hY : Y.norm ≤ 101 / 100) :
    ∃ z x, J.val (fcosineDistance w o) = .num z ∧ Sfm.cosineDistance W (P, Y) = some x ∧ |z - x| ≤ 64 * (u * κ) := by
  obtain ⟨d, q, hd, hq, hn, e1, e2, e3⟩ := transform_error A B hp hw S E
  have huκ : u ≤ u * κ := by nlinarith [E.one_le, A.u_nonneg]
  obtain ⟨-, ⟨z, hz, ez⟩⟩ := cosine_error A hb hd huκ E.precise E.tiny E.range hY hn e1 e2 e3
  refine ⟨z, 1 - (bearing q).dot Y, hz, ?_, ?_⟩
  · unfold Sfm.cosineDistance
    rw [hq]
    rfl
  · rw [show (bearing q).dot Y = Y.dot (bearing q) by simp only [lin]; ring]
    exact ez

omit [FloatBits D] in
theorem lt_of_near {a t : D} {z x θ e : ℝ} (ha : J.val a = .num z) (ht : J.val t = .num θ) (h : |z - x| ≤ e) :
    (x + e < θ → lt a t = true) ∧ (lt a t = true → x < θ + e) ∧
      (θ + e < x → lt t a = true) ∧ (lt t a = true → θ < x + e) := by
  obtain ⟨h1, h2⟩ := abs_le.1 h
  refine ⟨fun h => (J.lt a t).2 ?_, fun h => ?_, fun h => (J.lt t a).2 ?_, fun h => ?_⟩
  · rw [ha, ht]; show z < θ; linarith
  · have := (J.lt a t).1 h
    rw [ha, ht] at this
    have : z < θ := this
    linarith
  · rw [ha, ht]; show θ < z; linarith
  · have := (J.lt t a).1 h
    rw [ha, ht] at this
    have : θ < z := this
    linarith

/-- **C111** Outside a margin of `64 u κ` around the threshold, a match is an inlier exactly if it is one in exact
arithmetic. -/
theorem C111_inlier (A : Accurate J u η M) (B : IeeeBits J) {p : Iso D} {b : V3 D} {w : V4 D} {t : D} {P : Iso ℝ}
    {Y : V3 ℝ} {W : V4 ℝ} {r κ θ : ℝ} (hp : HasIso J p P) (hb : HasV J b Y) (hw : Has4 J w W) (S : InSight P W r κ)
    (E : Fine u η M r κ) (hY : Y.norm ≤ 101 / 100) (ht : J.val t = .num θ) :
    ∃ x, worldResidual P Y W = some x ∧
      (64 * (u * κ) < |x - θ| → (finlier (fworldResidual p b w) t = true ↔ x < θ)) := by
  obtain ⟨z, x, hz, hx, e⟩ := C111_world A B hp hb hw S E hY
  obtain ⟨h1, h2, -, -⟩ := lt_of_near hz ht e
  refine ⟨x, hx, fun hm => ⟨fun h => ?_, fun h => h1 ?_⟩⟩
  · have := h2 h
    by_contra hcon
    push Not at hcon
    rw [abs_of_nonneg (by linarith)] at hm
    linarith
  · rw [abs_of_neg (by linarith)] at hm
    linarith

/-- What a list of observations is in exact arithmetic, all of them in sight of the point. -/
def Observe (J : Ieee D) (u η M κ : ℝ) (W : V4 ℝ) (o : FObservation D) (O : Iso ℝ × V3 ℝ) : Prop :=
  HasIso J o.pose O.1 ∧ HasV J o.bearing O.2 ∧ O.2.norm ≤ 101 / 100 ∧ ∃ r, InSight O.1 W r κ ∧ Fine u η M r κ

theorem Observe.distance (A : Accurate J u η M) (B : IeeeBits J) {w : V4 D} {W : V4 ℝ} {κ : ℝ} (hw : Has4 J w W)
    {o : FObservation D} {O : Iso ℝ × V3 ℝ} (h : Observe J u η M κ W o O) :
    ∃ z x, J.val (fcosineDistance w o) = .num z ∧ Sfm.cosineDistance W O = some x ∧ |z - x| ≤ 64 * (u * κ) := by
  obtain ⟨h1, h2, h3, r, S, E⟩ := h
  exact C111_distance A B h1 h2 hw S E h3

/-- **C111** The filter keeps an observation whose exact distance is not above the limit by more than the margin below, and
removes one whose distance is above the limit by more than it. -/
theorem C111_kept (A : Accurate J u η M) (B : IeeeBits J) {w : V4 D} {W : V4 ℝ} {κ θ : ℝ} {t : D} (hw : Has4 J w W)
    (ht : J.val t = .num θ) {os : List (FObservation D)} {o : FObservation D} {O : Iso ℝ × V3 ℝ} (ho : o ∈ os)
    (h : Observe J u η M κ W o O) :
    ∃ x, Sfm.cosineDistance W O = some x ∧ (x + 64 * (u * κ) ≤ θ → o ∈ fkept t w os) ∧
      (θ + 64 * (u * κ) < x → o ∉ fkept t w os) := by
  obtain ⟨z, x, hz, hx, e⟩ := h.distance A B hw
  obtain ⟨-, -, h3, h4⟩ := lt_of_near hz ht e
  refine ⟨x, hx, fun hm => ?_, fun hm hmem => ?_⟩
  · refine List.mem_filter.2 ⟨ho, ?_⟩
    rw [Bool.not_eq_true', Bool.eq_false_iff]
    intro hl
    linarith [h4 hl]
  · have := (List.mem_filter.1 hmem).2
    rw [h3 hm] at this
    exact Bool.noConfusion this

/-- **C111** The test of an observation against two others or more: passed if all exact distances are below the limit by
more than the margin, and if it is passed all exact distances are below the limit enlarged by the margin. -/
theorem C111_consistent (A : Accurate J u η M) (B : IeeeBits J) {tri : List (FObservation D) → Option (V4 D)} {w : V4 D}
    {W : V4 ℝ} {κ θ : ℝ} {maxSine t : D} (hw : Has4 J w W) (ht : J.val t = .num θ) {o : FObservation D}
    {others : List (FObservation D)} (h2 : 2 ≤ others.length) (htri : tri (others ++ [o]) = some w)
    {Os : List (Iso ℝ × V3 ℝ)} (h : List.Forall₂ (Observe J u η M κ W) (others ++ [o]) Os) :
    ((∀ O ∈ Os, ∃ x, Sfm.cosineDistance W O = some x ∧ x + 64 * (u * κ) < θ) →
      fconsistent tri maxSine t o others = some true) ∧
    (fconsistent tri maxSine t o others = some true →
      ∀ O ∈ Os, ∃ x, Sfm.cosineDistance W O = some x ∧ x < θ + 64 * (u * κ)) := by
  have hdef : fconsistent tri maxSine t o others =
      some ((others ++ [o]).all fun y => lt (fcosineDistance w y) t) := by
    match others, h2 with
    | a :: b :: l, _ =>
      unfold fconsistent
      simp only [htri, Option.map_some, Option.getD_some]
  rw [hdef]
  have key : ∀ {l : List (FObservation D)} {L : List (Iso ℝ × V3 ℝ)}, List.Forall₂ (Observe J u η M κ W) l L →
      ((∀ O ∈ L, ∃ x, Sfm.cosineDistance W O = some x ∧ x + 64 * (u * κ) < θ) →
        (l.all fun y => lt (fcosineDistance w y) t) = true) ∧
      ((l.all fun y => lt (fcosineDistance w y) t) = true →
        ∀ O ∈ L, ∃ x, Sfm.cosineDistance W O = some x ∧ x < θ + 64 * (u * κ)) := by
    intro l L hl
    induction hl with
    | nil => simp
    | @cons y O l L hy hl ih =>
      obtain ⟨z, x, hz, hx, e⟩ := hy.distance A B hw
      obtain ⟨k1, k2, -, -⟩ := lt_of_near hz ht e
      refine ⟨fun hall => ?_, fun hall => ?_⟩
      · obtain ⟨x', hx', hlt⟩ := hall O (by simp)
        rw [hx] at hx'
        rw [Option.some.inj hx'] at k1
        rw [List.all_cons, k1 hlt, Bool.true_and]
        exact ih.1 fun O hO => hall O (by simp [hO])
      · rw [List.all_cons, Bool.and_eq_true] at hall
        intro O' hO'
        rcases List.mem_cons.1 hO' with rfl | hm
        · exact ⟨x, hx, k2 hall.1⟩
        · exact ih.2 hall.2 O' hm
  obtain ⟨k1, k2⟩ := key h
  exact ⟨fun hall => congrArg some (k1 hall), fun he => k2 (Option.some.inj he)⟩

end Verif.Geo.Rounded
