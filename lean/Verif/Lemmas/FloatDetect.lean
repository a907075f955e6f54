import Verif.Lemmas.FloatScale

/-!
# Lemmas: keypoints with floating point numbers
-/

namespace Verif.Akaze

open FloatOps FloatCast
open Verif.Bicubic (Flt)

variable {F D : Type} [FloatOps F] [FloatOps D] [FloatCast F D] {I : Ieee F} {J : Ieee D}

theorem memMapM {α β : Type _} {f : α → Option β} : ∀ {l : List α} {r : List β} {b : β}, l.mapM f = some r → b ∈ r →
    ∃ a ∈ l, f a = some b
  | [], r, b, h, hb => by cases h; cases hb
  | a :: l, r, b, h, hb => by
    rw [List.mapM_cons] at h
    simp only [Option.bind_eq_bind, Option.bind_eq_some_iff] at h
    obtain ⟨c, hc, r', hr', e⟩ := h
    obtain rfl := Option.some.inj e
    rcases List.mem_cons.1 hb with rfl | hb
    · exact ⟨a, List.mem_cons_self, hc⟩
    · obtain ⟨a', h1, h2⟩ := memMapM hr' hb
      exact ⟨a', List.mem_cons_of_mem _ h1, h2⟩

/-! ## Peaks -/

theorem fpeakAt_spec {threshold : F} {data : List F} {w h i : Nat} (hlen : data.length = w * h) (hw : 0 < w)
    (hi : w + 1 ≤ i) (hi' : i + w + 1 < w * h) : ∃ r, fpeakAt threshold w data i = some r ∧
      ∀ p, r = some p → 1 ≤ p.x ∧ p.x + 2 ≤ w ∧ 1 ≤ p.y ∧ p.y + 2 ≤ h := by
  have some' : ∀ n, n < w * h → ∃ v, data[n]? = some v := fun n hn =>
    ⟨_, List.getElem?_eq_getElem (by rw [hlen]; exact hn)⟩
  have hx : i % w < w := Nat.mod_lt _ hw
  have hdiv := Nat.mod_add_div i w
  have hy1 : 1 ≤ i / w := (Nat.one_le_div_iff hw).2 (by omega)
  obtain ⟨a, ha⟩ := some' (i - (w + 1)) (by omega)
  obtain ⟨b, hb'⟩ := some' (1 + (i - (w + 1))) (by omega)
  obtain ⟨c, hc⟩ := some' (2 + (i - (w + 1))) (by omega)
  obtain ⟨d, hd⟩ := some' (w + (i - (w + 1))) (by omega)
  obtain ⟨v, hv⟩ := some' (w + 1 + (i - (w + 1))) (by omega)
  obtain ⟨e, he⟩ := some' (w + 2 + (i - (w + 1))) (by omega)
  obtain ⟨f', hf⟩ := some' (2 * w + (i - (w + 1))) (by omega)
  obtain ⟨g, hg⟩ := some' (2 * w + 1 + (i - (w + 1))) (by omega)
  obtain ⟨k, hk⟩ := some' (2 * w + 2 + (i - (w + 1))) (by omega)
  unfold fpeakAt
  simp only [ha, hb', hc, hd, hv, he, hf, hg, hk, Option.bind_eq_bind, Option.bind_some, Option.pure_def]
  refine ⟨_, rfl, ?_⟩
  intro p hp
  split at hp
  · rename_i hcond
    obtain rfl := Option.some.inj hp
    obtain ⟨c1, c2, -⟩ := hcond
    refine ⟨by show 1 ≤ i % w; omega, by show i % w + 2 ≤ w; omega, hy1, ?_⟩
    show i / w + 2 ≤ h
    by_contra hcn
    have h1 : w * h ≤ w * (i / w + 1) := Nat.mul_le_mul_left _ (by omega)
    have h2 : w * (i / w + 1) = w * (i / w) + w := by ring
    omega
  · cases hp

theorem fpeaksOf_spec {threshold : F} {img : Img F} {w h : Nat} (hs : OfSize img w h) (hw : 0 < w) (hh : 2 ≤ h) :
    ∃ ps, fpeaksOf threshold img = some ps ∧ ∀ p ∈ ps, 1 ≤ p.x ∧ p.x + 2 ≤ w ∧ 1 ≤ p.y ∧ p.y + 2 ≤ h := by
  obtain ⟨hwf, e1, e2⟩ := hs
  have hlen : img.data.length = w * h := by unfold Img.WF at hwf; rwa [e1, e2] at hwf
  have hbig : w * 2 ≤ w * h := Nat.mul_le_mul_left _ hh
  have hall : ∀ i ∈ List.range' (w + 1) (w * h - w - 1 - (w + 1)), ∃ r, fpeakAt threshold w img.data i = some r ∧
      ∀ p, r = some p → 1 ≤ p.x ∧ p.x + 2 ≤ w ∧ 1 ≤ p.y ∧ p.y + 2 ≤ h := by
    intro i hi
    rw [List.mem_range'_1] at hi
    exact fpeakAt_spec hlen hw hi.1 (by omega)
  obtain ⟨r, hr⟩ := mapM_ok (fun i hi => (hall i hi).imp (fun _ h => h.1))
  refine ⟨r.filterMap id, ?_, ?_⟩
  · unfold fpeaksOf
    rw [hlen, e1, if_neg (by omega), hr]; rfl
  · intro p hp
    rw [List.mem_filterMap] at hp
    obtain ⟨q, hq, rfl⟩ := hp
    obtain ⟨i, hi, hi'⟩ := memMapM hr hq
    obtain ⟨r', hr', h⟩ := hall i hi
    rw [hi'] at hr'
    obtain rfl := Option.some.inj hr'
    exact h p rfl

/-! ## The margin -/

theorem smax_between : I.Between (10 * sqrt 2 : F) 14 15 := by
  have h10 : I.val (10 : F) = .num 10 := by
    have := val_nat (I := I) (n := 10) (by norm_num)
    simpa using this
  have hs : I.Between (sqrt 2 : F) (45 / 32) (3 / 2) := by
    unfold Ieee.Between
    rw [I.sqrt_num 2 2 val_two, if_neg (by norm_num)]
    refine rnd_between (exact_dyadic 45 5 (by norm_num) (by norm_num) (by norm_num))
      (exact_dyadic 3 1 (by norm_num) (by norm_num) (by norm_num)) ?_ ?_
    · exact Real.le_sqrt_of_sq_le (by norm_num)
    · rw [Real.sqrt_le_left (by norm_num)]; norm_num
  refine (between_val h10).mul hs (by exact_mod_cast exact_nat (I := I) (n := 14) (by norm_num))
    (by exact_mod_cast exact_nat (I := I) (n := 15) (by norm_num)) ?_
  intro x y x1 x2 y1 y2
  have : x = 10 := le_antisymm x2 x1
  subst this
  constructor <;> linarith

theorem roundAway_nat (n : Nat) : roundAway (n : ℝ) = n := by
  have := roundAway_int n
  simpa using this

/-- One coordinate of a keypoint that is not too close to the border. -/
theorem margin {kx sigma : F} {x n W : Nat} (hx : I.val kx = .num x) (hn : I.val sigma = .num n) (hx' : x ≤ 2 ^ 22)
    (hn' : n ≤ 2 ^ 19) (hW : W ≤ 2 ^ 22)
    (h1 : FloatOps.lt (FloatOps.round (kx - 10 * sqrt 2 * sigma) - 1) 0 = false)
    (h2 : FloatOps.le (W : F) (FloatOps.round (kx + 10 * sqrt 2 * sigma) + 1) = false) :
    14 * n + 1 ≤ x ∧ x + 14 * n + 1 < W := by
  have hm : I.Between (10 * sqrt 2 * sigma) (14 * n : Nat) (15 * n : Nat) := by
    refine (smax_between (I := I)).mul (between_val hn) (exact_nat (by omega)) (exact_nat (by omega)) ?_
    intro a b a1 a2 b1 b2
    have : b = n := le_antisymm b2 b1
    subst this
    have : (0 : ℝ) ≤ n := by positivity
    push_cast
    constructor <;> nlinarith
  constructor
  · have hb : I.Between (kx - 10 * sqrt 2 * sigma) ((x - 15 * n : ℤ) : ℝ) ((x - 14 * n : ℤ) : ℝ) := by
      refine (between_val hx).sub hm (exact_int ?_) (exact_int ?_) ?_ ?_
      · rw [abs_le]; constructor <;> omega
      · rw [abs_le]; constructor <;> omega
      · push_cast; linarith
      · push_cast; linarith
    obtain ⟨a, ea, a1, a2⟩ := hb.round
    rw [roundAway_int] at a1 a2
    have hl : I.val (FloatOps.round (kx - 10 * sqrt 2 * sigma) - 1) = .num ((a - 1 : ℤ) : ℝ) := by
      refine Ieee.Between.eq ((between_val ea).sub (between_val I.one) (exact_int ?_) (exact_int ?_) ?_ ?_)
      · rw [abs_le]; constructor <;> omega
      · rw [abs_le]; constructor <;> omega
      · push_cast; linarith
      · push_cast; linarith
    have : ¬ (((a - 1 : ℤ) : ℝ) < 0) := by
      intro hc
      have ht : FloatOps.lt (FloatOps.round (kx - 10 * sqrt 2 * sigma) - 1) 0 = true := by
        rw [I.lt, hl, I.zero]; exact hc
      rw [ht] at h1; cases h1
    have h0 : 0 ≤ a - 1 := by
      have := not_lt.1 this
      exact_mod_cast this
    omega
  · have hb : I.Between (kx + 10 * sqrt 2 * sigma) ((x + 14 * n : Nat) : ℝ) ((x + 15 * n : Nat) : ℝ) := by
      refine (between_val hx).add hm (exact_nat (by omega)) (exact_nat (by omega)) ?_ ?_
      · push_cast; linarith
      · push_cast; linarith
    obtain ⟨a, ea, a1, a2⟩ := hb.round
    rw [roundAway_nat] at a1 a2
    have hl : I.val (FloatOps.round (kx + 10 * sqrt 2 * sigma) + 1) = .num ((a + 1 : ℤ) : ℝ) := by
      refine Ieee.Between.eq ((between_val ea).add (between_val I.one) (exact_int ?_) (exact_int ?_) ?_ ?_)
      · rw [abs_le]; constructor <;> omega
      · rw [abs_le]; constructor <;> omega
      · push_cast; linarith
      · push_cast; linarith
    have : ¬ ((W : ℝ) ≤ ((a + 1 : ℤ) : ℝ)) := by
      intro hc
      have ht : FloatOps.le (W : F) (FloatOps.round (kx + 10 * sqrt 2 * sigma) + 1) = true := by
        rw [I.le, hl, val_nat (by omega)]; exact hc
      rw [ht] at h2; cases h2
    have h0 : a + 1 < W := by
      have := not_le.1 this
      exact_mod_cast this
    omega

/-! ## Candidates -/

/-- A keypoint found at a pixel of a level. -/
structure FStored (I : Ieee F) (levels : List (FDetLevel F D)) (w h : Nat) (k : FKeyPoint F) (l : FDetLevel F D)
    (x y n : Nat) : Prop where
  level : levels[k.classId]? = some l
  octave : k.octave = l.octave
  px : I.val k.x = .num (x * 2 ^ l.octave + (2 ^ l.octave - 1) / 2)
  py : I.val k.y = .num (y * 2 ^ l.octave + (2 ^ l.octave - 1) / 2)
  size : I.Between k.size 0 ((2 * n + 1) * 2 ^ l.octave / 2)
  angle : k.angle = 0
  pos : 1 ≤ n
  small : (2 * n + 1) * 2 ^ l.octave ≤ 2 ^ 22
  left : 14 * n + 1 ≤ x
  right : x + 14 * n + 1 < w / 2 ^ l.octave
  up : 14 * n + 1 ≤ y
  down : y + 14 * n + 1 < h / 2 ^ l.octave

theorem val_ratio {o : Nat} (ho : o ≤ 16) : I.val (pow 2 (o : F)) = .num (2 ^ o) := I.pow_two o (by omega)

/-- Half a pixel less than the width of a pixel. -/
theorem val_half_power {ratio : F} {o : Nat} (ho : o ≤ 16) (hr : I.val ratio = .num (2 ^ o)) :
    I.val (lit (1 / 2) * (ratio - 1)) = .num ((2 ^ o - 1) / 2) := by
  have h16 : (2 : ℤ) ^ o ≤ 2 ^ 16 := pow_le_pow_right₀ (by norm_num) ho
  have h1 : (1 : ℤ) ≤ 2 ^ o := one_le_pow₀ (by norm_num)
  have hs : I.val (ratio - 1) = .num ((2 ^ o - 1 : ℤ) : ℝ) := by
    have hx : I.Exact ((2 ^ o - 1 : ℤ) : ℝ) := exact_int (by rw [abs_le]; constructor <;> omega)
    refine Ieee.Between.eq ((between_val hr).sub (between_val I.one) hx hx ?_ ?_) <;> push_cast <;> linarith
  have hx : I.Exact ((2 ^ o - 1) / 2) := by
    refine exact_dyadic (2 ^ o - 1) 1 (by rw [abs_le]; constructor <;> omega) (by norm_num) (by push_cast; ring)
  refine Ieee.Between.eq ((between_val val_half).mul (between_val hs) hx hx ?_)
  intro x y x1 x2 y1 y2
  have e1 : x = 1 / 2 := le_antisymm x2 x1
  have e2 := le_antisymm y2 y1
  rw [e1, e2]
  push_cast
  constructor <;> linarith

theorem le_of_mul_div {w W o : Nat} (hW : W ≤ w / 2 ^ o) : W * 2 ^ o ≤ w :=
  le_trans (Nat.mul_le_mul_right _ hW) (Nat.div_mul_le_self w _)

/-- Pixels of a level in pixels of the image, exactly. -/
theorem val_place {kx ratio : F} {x o w : Nat} (ho : o ≤ 16) (hx : I.val kx = .num x) (hr : I.val ratio = .num (2 ^ o))
    (hw : (x + 1) * 2 ^ o ≤ w) (hw' : w ≤ 2 ^ 22) :
    I.val (kx * ratio + lit (1 / 2) * (ratio - 1)) = .num (x * 2 ^ o + (2 ^ o - 1) / 2) := by
  have hexp : (x + 1) * 2 ^ o = x * 2 ^ o + 2 ^ o := by ring
  have hpos : 1 ≤ 2 ^ o := Nat.one_le_two_pow
  have hxo : x * 2 ^ o ≤ 2 ^ 24 := by
    generalize 2 ^ o = c at *
    omega
  have hm : I.val (kx * ratio) = .num ((x * 2 ^ o : Nat) : ℝ) := by
    have he : I.Exact ((x * 2 ^ o : Nat) : ℝ) := exact_nat hxo
    refine Ieee.Between.eq ((between_val hx).mul (between_val hr) he he ?_)
    intro a b a1 a2 b1 b2
    rw [le_antisymm a2 a1, le_antisymm b2 b1]
    push_cast
    exact ⟨le_rfl, le_rfl⟩
  have he : I.Exact (x * 2 ^ o + (2 ^ o - 1) / 2) := by
    refine exact_dyadic (2 * (x * 2 ^ o : Nat) + ((2 ^ o : Nat) - 1)) 1 ?_ (by norm_num) (by push_cast; ring)
    rw [abs_le]
    generalize 2 ^ o = c at *
    constructor <;> omega
  refine Ieee.Between.eq ((between_val hm).add (between_val (val_half_power ho hr)) he he ?_ ?_) <;> push_cast <;> linarith

theorem fstored_ok (C : IeeeCast I J) {df : D} {levels : List (FDetLevel F D)} {w h : Nat} (hw : w ≤ 2 ^ 22) (hh : h ≤ 2 ^ 22)
    {l : FDetLevel F D} {e : Nat} (hl : DetOk J df w h l) (he : levels[e]? = some l) {p : FPeak F}
    (hp : p.x + 2 ≤ w / 2 ^ l.octave ∧ p.y + 2 ≤ h / 2 ^ l.octave) (ho : fisOut (fcandidate df l e p) = false) :
    ∃ n, FStored I levels w h (fstored (fcandidate df l e p)) l p.x p.y n := by
  have ho16 := octave_small hl.large hw
  have hr := val_ratio (I := I) ho16
  have hpw1 : (1 : ℝ) ≤ 2 ^ l.octave := one_le_pow₀ (by norm_num)
  have hW : w / 2 ^ l.octave ≤ w := Nat.div_le_self _ _
  have hH : h / 2 ^ l.octave ≤ h := Nat.div_le_self _ _
  have hsz : I.Between (narrow (l.esigma * df)) (2 ^ l.octave) (2 ^ 19) := by
    obtain ⟨z, ez, z1, z2⟩ := hl.size
    unfold Ieee.Between
    rw [C.narrow, ez]
    exact rnd_between (exact_power (by omega)) (exact_power (by norm_num)) z1 z2
  obtain ⟨z, ez, z1, z2⟩ := hsz
  -- the rounded size in pixels of the level
  obtain ⟨q, eq, q1, q2⟩ : I.Between (narrow (l.esigma * df) / pow 2 (l.octave : F)) 1 (2 ^ 19) := by
    refine (between_val ez).div hr (by positivity) exact_one (exact_power (by norm_num)) (by simpa using z1) ?_
    nlinarith
  have hq : I.rnd (z / 2 ^ l.octave) = .num q := by
    rw [← I.div _ _ _ _ ez hr (by positivity)]; exact eq
  have en := I.round_num _ _ eq
  have n1 : 1 ≤ roundAway q := by
    have := roundAway_mono q1
    have h1 := roundAway_int 1
    push_cast at h1; omega
  have n2 : roundAway q ≤ 2 ^ 19 := by
    have := roundAway_mono q2
    have h1 := roundAway_int (2 ^ 19)
    rw [show (((2 ^ 19 : ℤ)) : ℝ) = 2 ^ 19 by norm_num] at h1
    omega
  obtain ⟨n, hn⟩ : ∃ n : Nat, roundAway q = n := ⟨(roundAway q).toNat, by omega⟩
  rw [hn] at n1 n2 en
  have en' : I.val (FloatOps.round (narrow (l.esigma * df) / pow 2 (l.octave : F))) = .num (n : ℝ) := by
    simpa using en
  unfold fisOut at ho
  simp only [fcandidate, Bool.or_eq_false_iff] at ho
  obtain ⟨⟨⟨o1, o2⟩, o3⟩, o4⟩ := ho
  rw [hl.ldet.2.1] at o2
  rw [hl.ldet.2.2] at o4
  obtain ⟨m1, m2⟩ := margin (I := I) (val_nat (by omega)) en' (by omega) (by omega) (by omega) o1 o2
  obtain ⟨m3, m4⟩ := margin (I := I) (val_nat (by omega)) en' (by omega) (by omega) (by omega) o3 o4
  have w1 : (p.x + 1) * 2 ^ l.octave ≤ w := le_of_mul_div (by omega)
  have w2 : (p.y + 1) * 2 ^ l.octave ≤ h := le_of_mul_div (by omega)
  have w3 : (2 * n + 1) * 2 ^ l.octave ≤ w := le_of_mul_div (by omega)
  refine ⟨n, he, rfl, val_place ho16 (val_nat (by omega)) hr w1 hw, val_place ho16 (val_nat (by omega)) hr w2 hh,
    ⟨z, ez, le_trans (by positivity) z1, ?_⟩, rfl, by omega, by omega, m1, m2, m3, m4⟩
  -- the size is not larger than it was rounded to
  by_contra hc
  have hlt := not_le.1 hc
  have h1 : ((2 * n + 1 : ℤ) : ℝ) / 2 ^ 1 ≤ z / 2 ^ l.octave := by
    rw [le_div_iff₀ (by positivity)]; push_cast; linarith
  have h2 := I.rnd_mono _ _ h1
  rw [I.rnd_dyadic (2 * n + 1) 1 (by rw [abs_le]; constructor <;> omega) (by norm_num), hq] at h2
  have h3 : ((2 * n + 1 : ℤ) : ℝ) / 2 ^ 1 ≤ q := h2
  have h4 := roundAway_mono h3
  have h5 : roundAway (((2 * n + 1 : ℤ) : ℝ) / 2 ^ 1) = n + 1 := by
    unfold roundAway
    rw [if_pos (by positivity), Int.floor_eq_iff]
    push_cast
    constructor <;> linarith
  omega

/-- All keypoints found. -/
theorem ffindExtrema_spec (C : IeeeCast I J) {threshold df : D} {levels : List (FDetLevel F D)} {w h : Nat} (hw : w ≤ 2 ^ 22)
    (hh : h ≤ 2 ^ 22) (hl : ∀ l ∈ levels, DetOk J df w h l) : ∃ ks, ffindExtrema threshold df levels = some ks ∧
      ∀ k ∈ ks, ∃ l ∈ levels, ∃ x y n, FStored I levels w h k l x y n := by
  -- the candidates
  obtain ⟨cs, ecs, hcs⟩ : ∃ cs, fcandidates threshold df levels = some cs ∧ ∀ c ∈ cs, ∃ l ∈ levels, ∃ e p,
      levels[e]? = some l ∧ c = fcandidate df l e p ∧ p.x + 2 ≤ w / 2 ^ l.octave ∧ p.y + 2 ≤ h / 2 ^ l.octave := by
    have hall : ∀ p ∈ levels.zipIdx, ∃ r, (fpeaksOf (narrow threshold) p.1.ldet).map
        (fun ps => ps.map (fcandidate df p.1 p.2)) = some r ∧ ∀ c ∈ r, ∃ l ∈ levels, ∃ e p,
      levels[e]? = some l ∧ c = fcandidate df l e p ∧ p.x + 2 ≤ w / 2 ^ l.octave ∧ p.y + 2 ≤ h / 2 ^ l.octave := by
      rintro ⟨l, e⟩ hp
      have hle : levels[e]? = some l := by
        rw [List.mem_zipIdx_iff_getElem?] at hp; exact hp
      have hmem := List.mem_of_getElem? hle
      obtain ⟨g1, g2⟩ := (hl l hmem).large.sides
      obtain ⟨ps, eps, hps⟩ := fpeaksOf_spec (threshold := narrow threshold) (hl l hmem).ldet (by omega) (by omega)
      refine ⟨_, by rw [eps]; rfl, ?_⟩
      intro c hc
      obtain ⟨p, hp, rfl⟩ := List.mem_map.1 hc
      obtain ⟨-, a, -, b⟩ := hps p hp
      exact ⟨l, hmem, e, p, hle, rfl, a, b⟩
    obtain ⟨r, hr⟩ := mapM_ok (fun p hp => (hall p hp).imp (fun _ h => h.1))
    refine ⟨r.flatten, by unfold fcandidates; rw [hr]; rfl, ?_⟩
    intro c hc
    obtain ⟨q, hq, hc⟩ := List.mem_flatten.1 hc
    obtain ⟨p, hp, ep⟩ := memMapM hr hq
    obtain ⟨r', er', h⟩ := hall p hp
    rw [ep] at er'
    obtain rfl := Option.some.inj er'
    exact h c hc
  refine ⟨ffilterUpper (cs.foldl faddCandidate []), by unfold ffindExtrema; rw [ecs]; rfl, ?_⟩
  -- the cache
  have hcache : ∀ (cs : List (FCandidate F)) (cache : List (FKeyPoint F)), (∀ c ∈ cs, ∃ l ∈ levels, ∃ e p,
      levels[e]? = some l ∧ c = fcandidate df l e p ∧ p.x + 2 ≤ w / 2 ^ l.octave ∧ p.y + 2 ≤ h / 2 ^ l.octave) →
      (∀ k ∈ cache, ∃ l ∈ levels, ∃ x y n, FStored I levels w h k l x y n) →
      ∀ k ∈ cs.foldl faddCandidate cache, ∃ l ∈ levels, ∃ x y n, FStored I levels w h k l x y n := by
    intro cs
    induction cs with
    | nil => intro cache _ h; exact h
    | cons c cs ih =>
      intro cache hc hk
      refine ih _ (fun c' h' => hc c' (List.mem_cons_of_mem _ h')) ?_
      obtain ⟨l, hm, e, p, he, rfl, p1, p2⟩ := hc c List.mem_cons_self
      have hnew : fisOut (fcandidate df l e p) = false → ∃ l' ∈ levels, ∃ x y n,
          FStored I levels w h (fstored (fcandidate df l e p)) l' x y n := by
        intro hout
        obtain ⟨n, hn⟩ := fstored_ok C hw hh (hl l hm) he ⟨p1, p2⟩ hout
        exact ⟨l, hm, _, _, n, hn⟩
      intro k hkm
      unfold faddCandidate at hkm
      split at hkm
      · split at hkm
        · exact hk k hkm
        · next hout =>
          rcases List.mem_append.1 hkm with h' | h'
          · exact hk k h'
          · obtain rfl := List.mem_singleton.1 h'
            exact hnew (by simpa using hout)
      · split at hkm
        · exact hk k hkm
        · split at hkm
          · split at hkm
            · exact hk k hkm
            · next hout =>
              rcases List.mem_or_eq_of_mem_set hkm with h' | rfl
              · exact hk k h'
              · exact hnew (by simpa using hout)
          · exact hk k hkm
  have hupper : ∀ l : List (FKeyPoint F), (ffilterUpper l).Sublist l := by
    intro l
    induction l with
    | nil => exact List.Sublist.slnil
    | cons a l ih =>
      unfold ffilterUpper
      split
      · exact ih.cons _
      · exact ih.cons_cons _
  intro k hk
  exact hcache cs [] hcs (by simp) k ((hupper _).subset hk)

end Verif.Akaze
