import Verif.Lemmas.FloatOrient
import Verif.Lemmas.Descriptor

/-!
# Lemmas: descriptors with floating point numbers
-/

namespace Verif.Akaze

open FloatOps FloatCast
open Verif.Bicubic (Flt)

/-- No panic, and a result has this property. -/
def Safe {α : Type _} (P : α → Prop) : Except Fault α → Prop
  | .ok a => P a
  | .error .panic => False
  | .error .outOfBounds => True

theorem Safe.bind {α β : Type _} {P : α → Prop} {Q : β → Prop} {e : Except Fault α} {f : α → Except Fault β} (he : Safe P e)
    (hf : ∀ a, P a → Safe Q (f a)) : Safe Q (e >>= f) := by
  rcases e with e | a
  · cases e
    · exact he
    · exact trivial
  · exact hf a he

theorem Safe.weaken {α : Type _} {P Q : α → Prop} {e : Except Fault α} (he : Safe P e) (h : ∀ a, P a → Q a) : Safe Q e := by
  rcases e with e | a
  · cases e
    · exact he
    · exact trivial
  · exact h a he

/-- A loop that counts its rounds. -/
theorem Safe.foldlM {α σ : Type _} {Inv : Nat → σ → Prop} {f : σ → α → Except Fault σ} : ∀ (l : List α) (n : Nat) (s : σ),
    Inv n s → (∀ i s a, n ≤ i → i < n + l.length → a ∈ l → Inv i s → Safe (Inv (i + 1)) (f s a)) →
      Safe (Inv (n + l.length)) (l.foldlM f s)
  | [], n, s, h0, _ => h0
  | a :: l, n, s, h0, hf => by
    rw [List.foldlM_cons]
    refine Safe.bind (hf n s a le_rfl (by simp) List.mem_cons_self h0) (fun s' hs' => ?_)
    have := Safe.foldlM (f := f) l (n + 1) s' hs' (fun i s b h1 h2 hb hi =>
      hf i s b (by omega) (by simp; omega) (List.mem_cons_of_mem _ hb) hi)
    rw [List.length_cons, show n + (l.length + 1) = n + 1 + l.length by omega]
    exact this

theorem safe_orPanic {α : Type _} {P : α → Prop} {o : Option α} (h : ∃ a, o = some a ∧ P a) : Safe P (orPanic o) := by
  obtain ⟨a, rfl, ha⟩ := h
  exact ha

variable {F D : Type} [FloatOps F] {I : Ieee F}

theorem fsampleValue_safe {channels w h : Nat} {lv : FDetLevel F D} (hlt : OfSize lv.lt w h) (hlx : OfSize lv.lx w h)
    (hly : OfSize lv.ly w h) (fr : FFrame F) (sum : F × F × F) (k l : ℤ) :
    Safe (fun _ => True) (fsampleValue channels lv fr sum k l) := by
  unfold fsampleValue
  simp only []
  generalize toInt (FloatOps.round (fr.yf + (ofInt l * fr.co * fr.scale + ofInt k * fr.si * fr.scale))) = y1
  generalize toInt (FloatOps.round (fr.xf + (-ofInt l * fr.si * fr.scale + ofInt k * fr.co * fr.scale))) = x1
  rw [hlt.2.1, hlt.2.2]
  split
  · exact trivial
  · next hc =>
    rw [not_or, not_not, not_not] at hc
    have hx : x1.toNat < w := by omega
    have hy : y1.toNat < h := by omega
    obtain ⟨a, ha⟩ := hlt.get hx hy
    obtain ⟨b, hb⟩ := hlx.get hx hy
    obtain ⟨c, hc'⟩ := hly.get hx hy
    rw [ha, hb, hc']
    simp only [orPanic]
    show Safe _ (if channels > 1 then _ else _)
    split
    · show Safe _ (if channels = 2 then _ else _)
      split <;> exact trivial
    · exact trivial

theorem fcellValue_safe {channels step w h : Nat} {lv : FDetLevel F D} (hlt : OfSize lv.lt w h) (hlx : OfSize lv.lx w h)
    (hly : OfSize lv.ly w h) (fr : FFrame F) (i j : ℤ) : Safe (fun _ => True) (fcellValue channels step lv fr i j) := by
  unfold fcellValue
  refine Safe.bind (P := fun _ => True) ?_ (fun a _ => trivial)
  exact Safe.foldlM (Inv := fun _ _ => True) _ 0 _ trivial (fun _ s p _ _ _ _ => fsampleValue_safe hlt hlx hly fr s p.1 p.2)

omit [FloatOps F] in
theorem fstoreCell_safe {channels n : Nat} (hc : channels ≤ 3) (hn : n < 16) {st : List F × Nat}
    (hs : st.1.length = 48 ∧ st.2 = n * channels) (v : F × F × F) :
    Safe (fun st' : List F × Nat => st'.1.length = 48 ∧ st'.2 = (n + 1) * channels) (fstoreCell channels st v) := by
  obtain ⟨h1, h2⟩ := hs
  have hb : st.2 + channels ≤ 48 := by
    rw [h2]; interval_cases channels <;> omega
  have hb' : st.2 < 48 := by
    rw [h2]; interval_cases channels <;> omega
  have wr : ∀ (b : Prop) [Decidable b] (l : List F) (i : Nat) (x : F), l.length = 48 → (b → i < 48) →
      Safe (fun l' : List F => l'.length = 48) (writeIf b l i x) := by
    intro b _ l i x hl hi
    unfold writeIf writeAt
    split
    · next hb => rw [if_pos (by rw [hl]; exact hi hb)]; exact (List.length_set).trans hl
    · exact hl
  unfold fstoreCell
  refine Safe.bind (P := fun l : List F => l.length = 48) ?_ (fun l1 e1 => ?_)
  · unfold writeAt
    rw [if_pos (by omega)]
    exact (List.length_set).trans h1
  refine Safe.bind (P := fun l : List F => l.length = 48) (wr _ _ _ _ e1 (fun h => by omega)) (fun l2 e2 => ?_)
  refine Safe.bind (P := fun l : List F => l.length = 48) (wr _ _ _ _ e2 (fun h => by omega)) (fun l3 e3 => ?_)
  exact ⟨e3, by show st.2 + channels = _; rw [h2]; ring⟩

theorem ffillValues_safe {p channels step w h : Nat} (hc : channels ≤ 3) (hs : 0 < step) (hp : p ≤ 2 * step)
    {lv : FDetLevel F D} (hlt : OfSize lv.lt w h) (hlx : OfSize lv.lx w h) (hly : OfSize lv.ly w h) (fr : FFrame F)
    {values : List F} (hv : values.length = 48) :
    Safe (fun l : List F => l.length = 48) (ffillValues p channels step lv fr values) := by
  have hcount : ((starts p step).flatMap (fun i => (starts p step).map (fun j => (i, j)))).length ≤ 16 := by
    have h4 : (starts p step).length ≤ 4 := by
      rw [length_starts]
      have : (2 * p + step - 1) / step < 5 := (Nat.div_lt_iff_lt_mul hs).2 (by omega)
      omega
    rw [List.length_flatMap]
    simp only [List.length_map, List.map_const', List.sum_replicate, smul_eq_mul]
    nlinarith
  unfold ffillValues
  rw [if_neg (by omega)]
  refine Safe.bind (P := fun st : List F × Nat => st.1.length = 48) ?_ (fun st h => h)
  refine Safe.weaken (Safe.foldlM (Inv := fun n (st : List F × Nat) => st.1.length = 48 ∧ st.2 = n * channels) _ 0 (values, 0)
    ⟨hv, by simp⟩ ?_) (fun st h => h.1)
  intro i st c h1 h2 _ hi
  refine Safe.bind (fcellValue_safe hlt hlx hly fr c.1 c.2) (fun v _ => ?_)
  exact fstoreCell_safe hc (by omega) hi v

theorem fcompare_safe {channels m : Nat} (hc : channels ≤ 3) (hm : m ∈ [2, 3, 4]) {values : List F} (hv : values.length = 48)
    {desc : List (BitVec 8)} {d : Nat} (hd : desc.length = 64)
    (hb : d + channels * (m * m * (m * m - 1) / 2) ≤ 512) :
    Safe (fun st : List (BitVec 8) × Nat => st.1.length = 64 ∧ st.2 = d + channels * (m * m * (m * m - 1) / 2))
      ((comparisons channels (m * m)).foldlM (fcompareOne channels values) (desc, d)) := by
  have hlen := length_comparisons (channels := channels) hm
  have := Safe.foldlM (Inv := fun n (st : List (BitVec 8) × Nat) => st.1.length = 64 ∧ st.2 = d + n)
    (f := fcompareOne channels values) (comparisons channels (m * m)) 0 (desc, d) ⟨hd, rfl⟩ (by
      intro i st c h1 h2 hcm hi
      obtain ⟨s1, s2⟩ := hi
      obtain ⟨g1, g2, g3⟩ := mem_comparisons hcm
      have hmm : m * m ≤ 16 := by
        simp only [List.mem_cons, List.not_mem_nil, or_false] at hm
        rcases hm with rfl | rfl | rfl <;> norm_num
      have hidx : ∀ a, a < m * m → channels * a + c.1 < values.length := by
        intro a ha
        rw [hv]
        interval_cases channels <;> omega
      unfold fcompareOne
      refine Safe.bind (safe_orPanic (P := fun _ => True) ⟨_, List.getElem?_eq_getElem (hidx _ (by omega)), trivial⟩) (fun a _ => ?_)
      refine Safe.bind (safe_orPanic (P := fun _ => True) ⟨_, List.getElem?_eq_getElem (hidx _ (by omega)), trivial⟩) (fun b _ => ?_)
      have hbyte : st.2 / 8 < st.1.length := by omega
      refine Safe.bind (safe_orPanic (P := fun _ => True) ⟨_, List.getElem?_eq_getElem hbyte, trivial⟩) (fun byte _ => ?_)
      refine Safe.bind (P := fun l : List (BitVec 8) => l.length = 64) ?_ (fun l hl => ?_)
      · unfold writeAt
        rw [if_pos hbyte]
        exact (List.length_set).trans s1
      · exact ⟨hl, by show st.2 + 1 = _; omega⟩)
  rw [Nat.zero_add, hlen] at this
  exact this

/-- The width of a cell. -/
theorem step_between {p : Nat} (hp : 0 < p) (hp' : p ≤ 2 ^ 20) {m : F} (hm : I.Between m (1 / 2) 1) :
    0 < toNat (ceil ((p : F) * m)) ∧ p ≤ 2 * toNat (ceil ((p : F) * m)) := by
  have hprod : I.Between ((p : F) * m) (p / 2) p := by
    refine (between_val (val_nat (by omega))).mul hm
      (exact_dyadic p 1 (by rw [abs_le]; constructor <;> omega) (by norm_num) (by push_cast; ring)) (exact_nat (by omega)) ?_
    intro a b a1 a2 b1 b2
    rw [le_antisymm a2 a1]
    have : (0 : ℝ) ≤ p := by positivity
    constructor <;> nlinarith
  obtain ⟨z, ez, z1, z2⟩ := hprod
  have hc := I.ceil_num _ _ ez
  have h1 : ⌈z⌉ ≤ p := Int.ceil_le.2 (by push_cast; exact z2)
  have h2 : (p : ℝ) / 2 ≤ ⌈z⌉ := z1.trans (Int.le_ceil z)
  have h3 : (p : ℤ) ≤ 2 * ⌈z⌉ := by
    have : ((p : ℤ) : ℝ) ≤ ((2 * ⌈z⌉ : ℤ) : ℝ) := by push_cast; linarith
    exact_mod_cast this
  rw [toNat_of_val hc (by omega)]
  omega

theorem sizeMult_between : I.Between (1 : F) (1 / 2) 1 ∧ I.Between (2 / 3 : F) (1 / 2) 1 ∧ I.Between (1 / 2 : F) (1 / 2) 1 := by
  have hh : I.Exact (1 / 2) := exact_dyadic 1 1 (by norm_num) (by norm_num) (by norm_num)
  have h3 : I.val (3 : F) = .num 3 := by
    have := val_nat (I := I) (n := 3) (by norm_num)
    simpa using this
  refine ⟨⟨1, I.one, by norm_num, le_rfl⟩, ?_, ?_⟩
  · exact (between_val val_two).div h3 (by norm_num) hh exact_one (by norm_num) (by norm_num)
  · exact (between_val I.one).div val_two (by norm_num) hh exact_one (by norm_num) (by norm_num)

theorem fmldb_safe (I : Ieee F) {p channels : Nat} (hc : channels ≤ 3) (hp : 0 < p) (hp' : p ≤ 2 ^ 20)
    {levels : List (FDetLevel F D)} {k : FKeyPoint F} {lv : FDetLevel F D} (hl : levels[k.classId]? = some lv) {w h : Nat}
    (hlt : OfSize lv.lt w h) (hlx : OfSize lv.lx w h) (hly : OfSize lv.ly w h) :
    Safe (fun d : List (BitVec 8) => d.length = 64) (fmldbDescriptor p channels levels k) := by
  obtain ⟨b1, b2, b3⟩ := sizeMult_between (I := I)
  have round : ∀ (m : F) (i d : Nat) (st : List F × List (BitVec 8) × Nat), I.Between m (1 / 2) 1 → i + 2 ∈ [2, 3, 4] →
      st.1.length = 48 → st.2.1.length = 64 → st.2.2 = d →
      d + channels * ((i + 2) * (i + 2) * ((i + 2) * (i + 2) - 1) / 2) ≤ 512 →
      Safe (fun st' : List F × List (BitVec 8) × Nat => st'.1.length = 48 ∧ st'.2.1.length = 64 ∧
        st'.2.2 = d + channels * ((i + 2) * (i + 2) * ((i + 2) * (i + 2) - 1) / 2)) (do
          let values ← ffillValues p channels (toNat (ceil ((p : F) * m))) lv (fframeOf k) st.1
          let out ← (comparisons channels ((i + 2) * (i + 2))).foldlM (fcompareOne channels values) st.2
          pure (values, out)) := by
    intro m i d st hm hi s1 s2 s3 hd
    obtain ⟨t1, t2⟩ := step_between hp hp' hm
    refine Safe.bind (ffillValues_safe hc t1 t2 hlt hlx hly (fframeOf k) s1) (fun values hv => ?_)
    obtain ⟨v, desc, d'⟩ := st
    simp only at s1 s2 s3
    subst s3
    exact Safe.bind (fcompare_safe hc hi hv s2 hd) (fun out ho => ⟨hv, ho.1, ho.2⟩)
  unfold fmldbDescriptor
  rw [if_neg (by omega), hl]
  refine Safe.bind (P := fun x => x = lv) rfl ?_
  rintro x rfl
  refine Safe.bind (P := fun st : List F × List (BitVec 8) × Nat => st.2.1.length = 64) ?_ (fun st h => h)
  have e : (fsizeMult : List F).zipIdx = [(1, 0), (2 / 3, 1), (1 / 2, 2)] := rfl
  rw [e, List.foldlM_cons]
  refine Safe.bind (round 1 0 0 _ b1 (by simp) (by simp) (by simp) rfl (by norm_num; omega)) (fun st1 h1 => ?_)
  rw [List.foldlM_cons]
  refine Safe.bind (round (2 / 3) 1 _ st1 b2 (by simp) h1.1 h1.2.1 h1.2.2 (by norm_num; omega)) (fun st2 h2 => ?_)
  rw [List.foldlM_cons]
  refine Safe.bind (round (1 / 2) 2 _ st2 b3 (by simp) h2.1 h2.2.1 h2.2.2 (by norm_num; omega)) (fun st3 h3 => ?_)
  exact h3.2.1

theorem fextractDescriptors_total {p channels : Nat} {levels : List (FDetLevel F D)} : ∀ {ks : List (FKeyPoint F)},
    (∀ k ∈ ks, Safe (fun d : List (BitVec 8) => d.length = 64) (fmldbDescriptor p channels levels k)) →
    ∃ l, fextractDescriptors p channels levels ks = some l ∧ (l.map Prod.fst).Sublist ks ∧ ∀ q ∈ l, q.2.length = 64
  | [], _ => ⟨[], rfl, List.Sublist.slnil, by simp⟩
  | k :: ks, h => by
    obtain ⟨l, hl, hsub, hlen⟩ := fextractDescriptors_total (fun k hk => h k (List.mem_cons_of_mem _ hk))
    have hk := h k List.mem_cons_self
    unfold fextractDescriptors
    split
    · next e => rw [e] at hk; exact hk.elim
    · exact ⟨l, hl, hsub.cons _, hlen⟩
    · next d e =>
      rw [e] at hk
      refine ⟨_, by rw [hl]; rfl, by simpa using hsub, ?_⟩
      intro q hq
      rcases List.mem_cons.1 hq with rfl | hq
      · exact hk
      · exact hlen q hq

end Verif.Akaze
