import Verif.Model.Orient

/-!
# akaze: descriptors and the whole extraction

Source: /repo/akaze/src/descriptors.rs and lib.rs 309-339, with exact real arithmetic.
-/

namespace Verif.Akaze

/-- What can stop a computation: a panic, or `Error::SampleOutOfBounds`. -/
inductive Fault where
  | panic
  | outOfBounds
deriving DecidableEq, Repr

/-- A value that must be there. -/
def orPanic {α : Type _} : Option α → Except Fault α
  | some a => .ok a
  | none => .error .panic

/-- descriptors.rs 66-71: where and how the surroundings of a keypoint are sampled. -/
structure Frame where
  xf : ℝ
  yf : ℝ
  co : ℝ
  si : ℝ
  scale : ℝ

/-- descriptors.rs 66-71. -/
noncomputable def frameOf (k : KeyPoint) : Frame :=
  let ratio : ℝ := 2 ^ k.octave
  { xf := k.x / ratio, yf := k.y / ratio, co := Real.cos k.angle, si := Real.sin k.angle,
    scale := (roundAway (1 / 2 * k.size / ratio) : ℝ) }

/-- descriptors.rs 125-157: what one sample adds to `di`, `dx` and `dy`. -/
noncomputable def sampleValue (channels : Nat) (lv : DetLevel) (fr : Frame) (k l : ℤ) : Except Fault (ℝ × ℝ × ℝ) := do
  let sampleY := fr.yf + (l * fr.co * fr.scale + k * fr.si * fr.scale)
  let sampleX := fr.xf + (-l * fr.si * fr.scale + k * fr.co * fr.scale)
  let y1 := roundAway sampleY
  let x1 := roundAway sampleX
  if ¬ (0 ≤ x1 ∧ x1 < lv.lt.w) ∨ ¬ (0 ≤ y1 ∧ y1 < lv.lt.h) then .error .outOfBounds
  else
    let ri ← orPanic (lv.lt.get x1.toNat y1.toNat)
    if channels > 1 then
      let rx ← orPanic (lv.lx.get x1.toNat y1.toNat)
      let ry ← orPanic (lv.ly.get x1.toNat y1.toNat)
      if channels = 2 then pure (ri, √(rx * rx + ry * ry), 0)
      else pure (ri, -rx * fr.si + ry * fr.co, rx * fr.co + ry * fr.si)
    else pure (ri, 0, 0)

/-- A range of integers. -/
def intRange (a : ℤ) (n : Nat) : List ℤ := (List.range n).map (fun i : Nat => a + i)

/-- `(-p..p).step_by(step)` for `step` not zero. -/
def starts (p step : Nat) : List ℤ := (List.range ((2 * p + step - 1) / step)).map (fun n : Nat => -(p : ℤ) + n * step)

/-- descriptors.rs 119-163: the means over one cell. The loops over `k` and `l` visit `step * step` samples. -/
noncomputable def cellValue (channels step : Nat) (lv : DetLevel) (fr : Frame) (i j : ℤ) :
    Except Fault (ℝ × ℝ × ℝ) := do
  let samples ← ((intRange i step).flatMap (fun k => (intRange j step).map (fun l => (k, l)))).mapM
    (fun p => sampleValue channels lv fr p.1 p.2)
  let n : ℝ := samples.length
  pure ((samples.map (fun s => s.1)).sum / n, (samples.map (fun s => s.2.1)).sum / n,
    (samples.map (fun s => s.2.2)).sum / n)

/-- Writing to a slice. -/
def writeAt {α : Type _} (l : List α) (i : Nat) (v : α) : Except Fault (List α) :=
  if i < l.length then .ok (l.set i v) else .error .panic

/-- descriptors.rs 167-172: a write under a condition. -/
def writeIf {α : Type _} (b : Prop) [Decidable b] (l : List α) (i : Nat) (v : α) : Except Fault (List α) :=
  if b then writeAt l i v else .ok l

/-- descriptors.rs 165-173: the means go to the buffer. -/
noncomputable def storeCell (channels : Nat) (st : List ℝ × Nat) (v : ℝ × ℝ × ℝ) : Except Fault (List ℝ × Nat) := do
  let values ← writeAt st.1 st.2 v.1
  let values ← writeIf (channels > 1) values (st.2 + 1) v.2.1
  let values ← writeIf (channels > 2) values (st.2 + 2) v.2.2
  pure (values, st.2 + channels)

/-- descriptors.rs 100-177 `mldb_fill_values`. A step of zero panics in `step_by`. -/
noncomputable def fillValues (p channels step : Nat) (lv : DetLevel) (fr : Frame) (values : List ℝ) :
    Except Fault (List ℝ) :=
  if step = 0 then .error .panic
  else do
    let st ← ((starts p step).flatMap (fun i => (starts p step).map (fun j => (i, j)))).foldlM (fun st c => do
      let v ← cellValue channels step lv fr c.1 c.2
      storeCell channels st v) (values, 0)
    pure st.1

/-- descriptors.rs 188-191: which values are compared, in order: the channel and the numbers of two cells. -/
def comparisons (channels count : Nat) : List (Nat × Nat × Nat) :=
  (List.range channels).flatMap (fun pos => (List.range count).flatMap (fun i =>
    (List.range' (i + 1) (count - (i + 1))).map (fun j => (pos, i, j))))

/-- descriptors.rs 190-198: one comparison sets one bit. `dpos >> 3` is the byte, `dpos & 7` the bit. -/
noncomputable def compareOne (channels : Nat) (values : List ℝ) (st : List (BitVec 8) × Nat) (c : Nat × Nat × Nat) :
    Except Fault (List (BitVec 8) × Nat) := do
  let ival ← orPanic values[channels * c.2.1 + c.1]?
  let jval ← orPanic values[channels * c.2.2 + c.1]?
  let res : BitVec 8 := if ival > jval then 1 else 0
  let byte ← orPanic st.1[st.2 / 8]?
  let desc ← writeAt st.1 (st.2 / 8) (byte ||| (res <<< (st.2 % 8)))
  pure (desc, st.2 + 1)

/-- descriptors.rs 180-202 `mldb_binary_comparisons`. -/
noncomputable def binaryComparisons (channels count : Nat) (values : List ℝ) (st : List (BitVec 8) × Nat) :
    Except Fault (List (BitVec 8) × Nat) :=
  (comparisons channels count).foldlM (compareOne channels values) st

/-- descriptors.rs 64: the widths of the cells relative to the pattern. -/
noncomputable def sizeMult : List ℝ := [1, 2 / 3, 1 / 2]

/-- descriptors.rs 55-98 `get_mldb_descriptor`. The assertion on the number of channels is only there in debug builds;
in others the values of more channels do not fit the buffer. -/
noncomputable def mldbDescriptor (p channels : Nat) (levels : List DetLevel) (k : KeyPoint) :
    Except Fault (List (BitVec 8)) := do
  if 3 < channels then .error .panic
  else
    let lv ← orPanic levels[k.classId]?
    let st ← sizeMult.zipIdx.foldlM (fun (st : List ℝ × List (BitVec 8) × Nat) (m : ℝ × Nat) => do
      let values ← fillValues p channels ⌈(p : ℝ) * m.1⌉₊ lv (frameOf k) st.1
      let out ← binaryComparisons channels ((m.2 + 2) * (m.2 + 2)) values st.2
      pure (values, out)) (List.replicate 48 0, List.replicate 64 0, 0)
    pure st.2.1

/-- descriptors.rs 16-45 `extract_descriptors` as a list of pairs. Keypoints without a descriptor are dropped. -/
noncomputable def extractDescriptors (p channels : Nat) (levels : List DetLevel) :
    List KeyPoint → Option (List (KeyPoint × List (BitVec 8)))
  | [] => some []
  | k :: ks =>
    match mldbDescriptor p channels levels k with
    | .error .panic => none
    | .error .outOfBounds => extractDescriptors p channels levels ks
    | .ok d => (extractDescriptors p channels levels ks).map (fun l => (k, d) :: l)

/-- lib.rs 109-142: the other settings. -/
structure Settings extends Config where
  maximumFeatures : Nat
  derivativeFactor : ℝ
  threshold : ℝ
  channels : Nat
  patternSize : Nat

/-- lib.rs 169-185 `Akaze::default` on a machine with 64 bits. -/
noncomputable def Settings.default : Settings := { Config.default with
  maximumFeatures := 2 ^ 64 - 1, derivativeFactor := 1.5, threshold := 0.001, channels := 3, patternSize := 10 }

/-- lib.rs 309-339 `extract_from_gray_float_image`. `sort` is `sort_unstable_by_key` with the response, largest first; how
it orders keypoints of the same response is not known. -/
noncomputable def extract (s : Settings) (sort : List KeyPoint → List KeyPoint) (image : Img ℝ) :
    Option (List KeyPoint × List (List (BitVec 8))) := do
  let scales ← scaleSpace s.toConfig image
  let levels ← scales.mapM (detLevel s.derivativeFactor)
  let ks ← detectKeypoints s.threshold s.derivativeFactor levels
  let found ← extractDescriptors s.patternSize s.channels levels ((sort ks).take s.maximumFeatures)
  pure found.unzip

end Verif.Akaze
