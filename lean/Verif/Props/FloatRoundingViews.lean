import Verif.Lemmas.FloatRoundingLoss
import Verif.Props.FloatRounding

/-!
# C111: the tests on two and three views, and on essential matrices
-/

namespace Verif.Geo.Rounded

open Verif.Akaze
open Verif.Bicubic (Flt)
open Verif.Akaze.FloatOps (lt)
open P3P (fdot fmulVec)

variable {D : Type} [FloatOps D] [FloatBits D] {J : Ieee D} {u η M : ℝ}

omit [FloatBits D] in
/-- **C111** The residual of an essential matrix for a match is a number within `96 u β² e` of the exact residual, where `β`
bounds the image coordinates and `e` the entries of the matrix. -/
theorem C111_essential (A : Accurate J u η M) {E : M3 D} {a b : V3 D} {X : M3 ℝ} {x y : V3 ℝ} {β e : ℝ}
    (hE : HasM J E X) (ha : HasV J a x) (hb : HasV J b y) (hx : x.z ≠ 0) (hy : y.z ≠ 0)
    (x1 : |x.x / x.z| ≤ β) (x2 : |x.y / x.z| ≤ β) (y1 : |y.x / y.z| ≤ β) (y2 : |y.y / y.z| ≤ β)
    (hβ : 1 ≤ β) (he : 0 ≤ e) (hX : (|X.m11| ≤ e ∧ |X.m12| ≤ e ∧ |X.m13| ≤ e) ∧ (|X.m21| ≤ e ∧ |X.m22| ≤ e ∧ |X.m23| ≤ e) ∧
      (|X.m31| ≤ e ∧ |X.m32| ≤ e ∧ |X.m33| ≤ e))
    (hu : u ≤ 1 / 1024) (hη : 1024 * η ≤ u) (hη2 : 1024 * η ≤ u * (β * e)) (hM : β ≤ M) (hM2 : 64 * (β * β * e) ≤ M) :
    ∃ z w, J.val (fessentialResidual E a b) = .num z ∧ essentialResidual X x y = some w ∧
      |z - w| ≤ 96 * (u * (β * β * e)) :=
  essential_error A hE ha hb hx hy x1 x2 y1 y2 hβ he hX hu hη hη2 hM hM2

/-- **C111** The epipolar loss of two bearings is a number within `256 u κ` of the exact loss, unless the bearings are
perpendicular up to rounding. -/
theorem C111_loss (A : Accurate J u η M) (B : IeeeBits J) {t a b : V3 D} {T x y : V3 ℝ} {m κ : ℝ} (ht : HasV J t T)
    (ha : HasV J a x) (hb : HasV J b y) (S : Baseline T x y m κ) (E : FineBase u η M m κ) (hsign : 64 * u < |x.dot y|) :
    ∃ z, J.val (floss t a b) = .num z ∧ |z - epipolarLoss T x y| ≤ 256 * (u * κ) :=
  loss_error A B ht ha hb (Close.refl A.u_nonneg x) (Close.refl A.u_nonneg y) S E hsign

/-- **C111** The test of a landmark in two views gives the answer of exact arithmetic, unless the exact loss is within
`256 u κ` of the limit. -/
theorem C111_two_views (A : Accurate J u η M) (B : IeeeBits J) {p : Iso D} {a b : V3 D} {t : D} {P : Iso ℝ} {x y : V3 ℝ}
    {m κ θ : ℝ} (hp : HasIso J p P) (ha : HasV J a x) (hb : HasV J b y) (ht : J.val t = .num θ) (hR : NearRot P.rot)
    (hx : x.norm ≤ 101 / 100) (S : Baseline P.t (P.rot.mulVec x) y m κ) (E : FineBase u η M m κ)
    (hsign : 64 * u < |(P.rot.mulVec x).dot y|)
    (hm : 256 * (u * κ) < |epipolarLoss P.t (P.rot.mulVec x) y - θ|) :
    fbiRobust p a b t = Sfm.biLandmarkRobust P x y θ := by
  have hu : u ≤ 1 / 4096 := by nlinarith [E.one_le, E.precise, A.u_nonneg]
  obtain ⟨x', hx', hc⟩ := turn_close A hp.1 ha hR hx hu E.tiny E.range
  obtain ⟨z, hz, ez⟩ := loss_error A B hp.2 hx' hb hc (Close.refl A.u_nonneg y) S E hsign
  obtain ⟨h1, h2, -, -⟩ := lt_of_near hz ht ez
  have key : fbiRobust p a b t = true ↔ Sfm.biLandmarkRobust P x y θ = true := by
    unfold Sfm.biLandmarkRobust
    rw [decide_eq_true_iff]
    constructor
    · intro h
      have := h2 h
      by_contra hcon
      push Not at hcon
      rw [abs_of_nonneg (by linarith)] at hm
      linarith
    · intro h
      rw [abs_of_neg (by linarith)] at hm
      exact h1 (by linarith)
  exact Bool.eq_iff_iff.2 key

/-- An observation in exact arithmetic: pose, bearing and ray in world coordinates. -/
def RayOf (J : Ieee D) (o : FObservation D) (O : Iso ℝ × V3 ℝ) : Prop :=
  HasIso J o.pose O.1 ∧ HasV J o.bearing O.2 ∧ NearRot O.1.inv.rot ∧ O.2.norm ≤ 101 / 100 ∧
    (O.1.inv.rot.mulVec O.2).norm ≤ 102 / 100

omit [FloatBits D] in
theorem RayOf.close (A : Accurate J u η M) {o : FObservation D} {O : Iso ℝ × V3 ℝ} (h : RayOf J o O) (hu : u ≤ 1 / 4096)
    (hη : 1024 * η ≤ u) (hM : 16 ≤ M) : ∃ r, HasV J o.ray r ∧ Close u r (O.1.inv.rot.mulVec O.2) := by
  obtain ⟨⟨⟨⟨a11, a12, a13⟩, ⟨a21, a22, a23⟩, a31, a32, a33⟩, -⟩, hb, hR, hn, -⟩ := h
  exact turn_close (R := (finv o.pose).rot) A ⟨⟨a11, a21, a31⟩, ⟨a12, a22, a32⟩, ⟨a13, a23, a33⟩⟩ hb hR hn hu hη hM

omit [FloatOps D] [FloatBits D] in
theorem combinations_close {R : V3 D → V3 ℝ → Prop} : ∀ {l : List (V3 D)} {L : List (V3 ℝ)}, List.Forall₂ R l L →
    List.Forall₂ (fun p q => R p.1 q.1 ∧ R p.2 q.2) (Sfm.combinations l) (Sfm.combinations L)
  | [], [], _ => .nil
  | a :: l, b :: L, h => by
    obtain ⟨h1, h2⟩ := List.forall₂_cons.1 h
    unfold Sfm.combinations
    refine List.rel_append ?_ (combinations_close h2)
    rw [List.forall₂_map_left_iff, List.forall₂_map_right_iff]
    exact h2.imp fun x y hxy => ⟨h1, hxy⟩

omit [FloatBits D] in
theorem any_near {α β : Type} {R : α → β → Prop} {f : α → Bool} {g k : β → Prop} (h1 : ∀ a b, R a b → g b → f a = true)
    (h2 : ∀ a b, R a b → f a = true → k b) : ∀ {l : List α} {L : List β}, List.Forall₂ R l L →
      ((∃ b ∈ L, g b) → l.any f = true) ∧ (l.any f = true → ∃ b ∈ L, k b)
  | [], [], _ => by simp
  | a :: l, b :: L, h => by
    obtain ⟨k1, k2⟩ := List.forall₂_cons.1 h
    obtain ⟨i1, i2⟩ := any_near h1 h2 k2
    rw [List.any_cons, Bool.or_eq_true]
    constructor
    · rintro ⟨c, hc, hg⟩
      rcases List.mem_cons.1 hc with rfl | hc
      · exact .inl (h1 _ _ k1 hg)
      · exact .inr (i1 ⟨c, hc, hg⟩)
    · rintro (h | h)
      · exact ⟨b, by simp, h2 _ _ k1 h⟩
      · obtain ⟨c, hc, hk⟩ := i2 h
        exact ⟨c, by simp [hc], hk⟩

omit [FloatBits D] in
/-- **C111** A landmark counts as robust if it has enough observations and the exact rays of two of them are farther apart
than the limit by more than `64 u`, and if it counts as robust then two of its exact rays are farther apart than the limit
less `64 u`. -/
theorem C111_robust (A : Accurate J u η M) {os : List (FObservation D)} {Os : List (Iso ℝ × V3 ℝ)} {t : D} {θ : ℝ}
    {minObservations views : Nat} (h : List.Forall₂ (RayOf J) os Os) (ht : J.val t = .num θ) (hu : u ≤ 1 / 4096)
    (hη : 1024 * η ≤ u) (hM : 16 ≤ M) :
    ((min minObservations views ≤ os.length ∧
      ∃ q ∈ Sfm.combinations (Os.map fun O => O.1.inv.rot.mulVec O.2), θ + 64 * u < 1 - q.1.dot q.2) →
      fobservationsRobust minObservations views t os = true) ∧
    (fobservationsRobust minObservations views t os = true → min minObservations views ≤ os.length ∧
      ∃ q ∈ Sfm.combinations (Os.map fun O => O.1.inv.rot.mulVec O.2), θ - 64 * u < 1 - q.1.dot q.2) := by
  have hl : List.Forall₂ (fun (r : V3 D) (x : V3 ℝ) => (∃ r', HasV J r r' ∧ Close u r' x) ∧ x.norm ≤ 102 / 100)
      (os.map FObservation.ray) (Os.map fun O => O.1.inv.rot.mulVec O.2) := by
    rw [List.forall₂_map_left_iff, List.forall₂_map_right_iff]
    exact h.imp fun o O hO => ⟨hO.close A hu hη hM, hO.2.2.2.2⟩
  have key := any_near (f := fun p : V3 D × V3 D => fangular p.1 p.2 t)
    (g := fun q : V3 ℝ × V3 ℝ => θ + 64 * u < 1 - q.1.dot q.2)
    (k := fun q : V3 ℝ × V3 ℝ => θ - 64 * u < 1 - q.1.dot q.2) ?_ ?_ (combinations_close hl)
  · unfold fobservationsRobust
    rw [Bool.and_eq_true, decide_eq_true_iff]
    exact ⟨fun ⟨h1, h2⟩ => ⟨h1, key.1 h2⟩, fun ⟨h1, h2⟩ => ⟨h1, key.2 h2⟩⟩
  · rintro p q ⟨⟨⟨r, hr, cr⟩, nr⟩, ⟨s, hs, cs⟩, ns⟩ hg
    obtain ⟨z, hz, ez⟩ := angle_close A hr hs cr cs nr ns hu hη hM
    exact (lt_of_near hz ht ez).2.2.1 hg
  · rintro p q ⟨⟨⟨r, hr, cr⟩, nr⟩, ⟨s, hs, cs⟩, ns⟩ hf
    obtain ⟨z, hz, ez⟩ := angle_close A hr hs cr cs nr ns hu hη hM
    have := (lt_of_near hz ht ez).2.2.2 hf
    show θ - 64 * u < _
    linarith

/-- **C111** The test of a landmark in three views, for the point given by the triangulator: passed if the exact distances
are below the limit and an exact angle is above the other limit, each by more than `64 u κ`; and if it is passed, this
holds of the limits moved by as much the other way. -/
theorem C111_three_views (A : Accurate J u η M) (B : IeeeBits J) {tri : List (FObservation D) → Option (V4 D)}
    {p q : Iso D} {c f s : V3 D} {w : V4 D} {W : V4 ℝ} {P Q : Iso ℝ} {x y z : V3 ℝ} {t l : D} {θ φ κ : ℝ}
    (htri : ftoCamera tri c [⟨p, f⟩, ⟨q, s⟩] = some w) (hw : Has4 J w W) (hW : W.xyz.norm ≤ 102 / 100)
    (hc : HasV J c x) (hx : x.norm ≤ 102 / 100) (ho : Observe J u η M κ W ⟨p, f⟩ (P, y))
    (ho' : Observe J u η M κ W ⟨q, s⟩ (Q, z)) (hr : RayOf J ⟨p, f⟩ (P, y)) (hr' : RayOf J ⟨q, s⟩ (Q, z))
    (ht : J.val t = .num θ) (hl : J.val l = .num φ) (hu : u * κ ≤ 1 / 4096) :
    let D1 := 1 - W.xyz.dot x
    let Y := P.inv.rot.mulVec y
    let Z := Q.inv.rot.mulVec z
    ∃ D2 D3, Sfm.cosineDistance W (P, y) = some D2 ∧ Sfm.cosineDistance W (Q, z) = some D3 ∧
      ((D1 + 64 * (u * κ) < θ ∧ D2 + 64 * (u * κ) < θ ∧ D3 + 64 * (u * κ) < θ ∧
          (φ + 64 * (u * κ) < 1 - x.dot Y ∨ φ + 64 * (u * κ) < 1 - x.dot Z ∨ φ + 64 * (u * κ) < 1 - Y.dot Z) →
        ftriRobust tri p q c f s t l = true) ∧
      (ftriRobust tri p q c f s t l = true →
        D1 < θ + 64 * (u * κ) ∧ D2 < θ + 64 * (u * κ) ∧ D3 < θ + 64 * (u * κ) ∧
          (φ < 1 - x.dot Y + 64 * (u * κ) ∨ φ < 1 - x.dot Z + 64 * (u * κ) ∨ φ < 1 - Y.dot Z + 64 * (u * κ)))) := by
  intro D1 Y Z
  have hu0 := A.u_nonneg
  obtain ⟨r, SP, EP⟩ := ho.2.2.2
  have huκ : u ≤ u * κ := by nlinarith [EP.one_le]
  have hu' : u ≤ 1 / 4096 := huκ.trans hu
  obtain ⟨d2, D2, k2, hD2, e2⟩ := ho.distance A B hw
  obtain ⟨d3, D3, k3, hD3, e3⟩ := ho'.distance A B hw
  obtain ⟨y', hy', cy⟩ := hr.close A hu' EP.tiny EP.range
  obtain ⟨z', hz', cz⟩ := hr'.close A hu' EP.tiny EP.range
  obtain ⟨w1, w2, w3, -⟩ := hw
  have rx := Close.refl hu0 x
  have rW := Close.refl hu0 W.xyz
  obtain ⟨d1, k1, e1⟩ := angle_close A (a := fbearing w) (a' := W.xyz) ⟨w1, w2, w3⟩ hc rW rx hW hx hu' EP.tiny EP.range
  obtain ⟨a1, j1, i1⟩ := angle_close A hc hy' rx cy hx hr.2.2.2.2 hu' EP.tiny EP.range
  obtain ⟨a2, j2, i2⟩ := angle_close A hc hz' rx cz hx hr'.2.2.2.2 hu' EP.tiny EP.range
  obtain ⟨a3, j3, i3⟩ := angle_close A hy' hz' cy cz hr.2.2.2.2 hr'.2.2.2.2 hu' EP.tiny EP.range
  have up : ∀ {v w : ℝ}, |v - w| ≤ 64 * u → |v - w| ≤ 64 * (u * κ) := fun h => h.trans (by linarith)
  obtain ⟨p1, q1, -, -⟩ := lt_of_near k1 ht (up e1)
  obtain ⟨p2, q2, -, -⟩ := lt_of_near k2 ht e2
  obtain ⟨p3, q3, -, -⟩ := lt_of_near k3 ht e3
  obtain ⟨-, -, b1, c1⟩ := lt_of_near j1 hl (up i1)
  obtain ⟨-, -, b2, c2⟩ := lt_of_near j2 hl (up i2)
  obtain ⟨-, -, b3, c3⟩ := lt_of_near j3 hl (up i3)
  have hdef : ftriRobust tri p q c f s t l = ((lt (fcentreDistance w c) t && lt (fcosineDistance w ⟨p, f⟩) t &&
      lt (fcosineDistance w ⟨q, s⟩) t) && (fangular c (FObservation.ray ⟨p, f⟩) l || fangular c (FObservation.ray ⟨q, s⟩) l ||
        fangular (FObservation.ray ⟨p, f⟩) (FObservation.ray ⟨q, s⟩) l)) := by
    unfold ftriRobust
    rw [htri]
    rfl
  refine ⟨D2, D3, hD2, hD3, ?_, ?_⟩
  · rintro ⟨g1, g2, g3, g4⟩
    rw [hdef, Bool.and_eq_true, Bool.and_eq_true, Bool.and_eq_true, Bool.or_eq_true, Bool.or_eq_true]
    refine ⟨⟨⟨p1 g1, p2 g2⟩, p3 g3⟩, ?_⟩
    rcases g4 with g | g | g
    · exact .inl (.inl (b1 g))
    · exact .inl (.inr (b2 g))
    · exact .inr (b3 g)
  · intro h
    rw [hdef, Bool.and_eq_true, Bool.and_eq_true, Bool.and_eq_true, Bool.or_eq_true, Bool.or_eq_true] at h
    obtain ⟨⟨⟨g1, g2⟩, g3⟩, g4⟩ := h
    refine ⟨q1 g1, q2 g2, q3 g3, ?_⟩
    rcases g4 with (g | g) | g
    · exact .inl (c1 g)
    · exact .inr (.inl (c2 g))
    · exact .inr (.inr (c3 g))

end Verif.Geo.Rounded
