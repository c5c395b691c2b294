import Mathlib.Tactic.Ring
import Mathlib.Tactic.Linarith
import Verif.Spec.Plot

/-! Lemmas on plots. -/

namespace PT
open Spec

variable {α : Type}

theorem flatMap_getElem? {β γ : Type} (f : β → List γ) (m : ℕ) : ∀ (l : List β) (_ : ∀ x ∈ l, (f x).length = m)
    (i j : ℕ), j < m → (l.flatMap f)[i * m + j]? = (l[i]?).bind fun x => (f x)[j]?
  | [], _, i, j, _ => by simp
  | x :: l, h, 0, j, hj => by
    have hx := h x (by simp)
    rw [List.flatMap_cons, List.getElem?_append_left (by omega)]
    simp
  | x :: l, h, i + 1, j, hj => by
    have hx := h x (by simp)
    rw [List.flatMap_cons, List.getElem?_append_right (by rw [hx, Nat.add_mul]; omega)]
    rw [show (i + 1) * m + j - (f x).length = i * m + j by rw [hx, Nat.add_mul]; omega]
    rw [flatMap_getElem? f m l (fun y hy => h y (by simp [hy])) i j hj]
    simp

theorem owners_flat {cs : List PlotComp} (h : Flat cs) :
    detLabels cs = (owners cs).map LabelPart.det ∧ numDetectors cs = (owners cs).length := by
  induction cs with
  | nil => simp [detLabels, owners, numDetectors]
  | cons c cs ih =>
    obtain ⟨h1, h2⟩ := ih fun x hx => h x (by simp [hx])
    have hc := h c (by simp)
    have e1 : owners (c :: cs) = List.replicate c.numDet c.name ++ owners cs := rfl
    have e2 : numDetectors (c :: cs) = c.numDet + numDetectors cs := by simp [numDetectors]
    cases hd : c.isDet
    · have e3 : detLabels (c :: cs) = detLabels cs := by simp [detLabels, hd]
      rw [hd] at hc
      rw [e1, e2, e3, h1, h2, hc]; simp
    · have e3 : detLabels (c :: cs) = .det c.name :: detLabels cs := by simp [detLabels, hd]
      rw [hd] at hc
      rw [e1, e2, e3, h1, h2, hc]; simp [List.replicate]; omega

theorem owners_length (cs : List PlotComp) : (owners cs).length = numDetectors cs := by
  induction cs with
  | nil => rfl
  | cons c cs ih => simp [owners, numDetectors] at ih ⊢

/-- Position of the data at wavelength, detector and batch among the curves. -/
def enc (W D w d b : ℕ) : ℕ := (b * W + w) * D + d

theorem enc_lt {W D B w d b : ℕ} (hw : w < W) (hd : d < D) (hb : b < B) : enc W D w d b < B * W * D := by
  unfold enc
  have h1 : b * W + w < B * W := by nlinarith
  nlinarith

theorem enc_surj {W D B j : ℕ} (h : j < B * W * D) : ∃ w < W, ∃ d < D, ∃ b < B, enc W D w d b = j := by
  have hD : 0 < D := Nat.pos_of_ne_zero (by rintro rfl; simp at h)
  have hW : 0 < W := Nat.pos_of_ne_zero (by rintro rfl; simp at h)
  refine ⟨j / D % W, Nat.mod_lt _ hW, j % D, Nat.mod_lt _ hD, j / D / W, ?_, ?_⟩
  · rw [Nat.div_lt_iff_lt_mul hW, Nat.div_lt_iff_lt_mul hD]; exact h
  · unfold enc
    rw [Nat.div_add_mod' (j / D) W, Nat.div_add_mod']

theorem labelsFit_of {names : ℕ → ℕ → ℕ → List LabelPart → Prop} {W D B M : ℕ} {values : ℕ → ℕ → ℕ → List α}
    {lab : ℕ → Option (List LabelPart)} {val : ℕ → List α} (hM : M = B * W * D)
    (h : ∀ w < W, ∀ d < D, ∀ b < B, val (enc W D w d b) = values w d b ∧
      names w d b ((lab (enc W D w d b)).getD [])) :
    LabelsFit names W D B values ((List.range M).map fun j => ⟨lab j, val j⟩) := by
  subst hM
  constructor
  · intro c hc
    obtain ⟨j, hj, rfl⟩ := List.mem_map.1 hc
    obtain ⟨w, hw, d, hd, b, hb, rfl⟩ := enc_surj (List.mem_range.1 hj)
    exact ⟨w, hw, d, hd, b, hb, h w hw d hd b hb⟩
  · intro w hw d hd b hb
    exact ⟨_, List.mem_map.2 ⟨_, List.mem_range.2 (enc_lt hw hd hb), rfl⟩, h w hw d hd b hb⟩

theorem right_nm {cs : List PlotComp} {wl : List ℚ} {w d b : ℕ} (hpos : ∀ x ∈ wl, 0 ≤ x) (hw : w < wl.length) :
    ∃ p, (wlLabels wl)[w]? = some (.nm p) ∧ Right cs wl w d b (.nm p) := by
  have h0 : 0 ≤ 10 ^ 9 * wl[w] := mul_nonneg (by norm_num) (hpos _ (List.getElem_mem hw))
  refine ⟨pyTrunc (10 ^ 9 * wl[w]), by simp [wlLabels, hw], wl[w], by simp [hw], ?_, ?_⟩
  · rw [pyTrunc, if_pos h0]; exact Int.floor_le _
  · rw [pyTrunc, if_pos h0]; exact Int.lt_floor_add_one _

theorem right_det {cs : List PlotComp} {wl : List ℚ} {w d b : ℕ} (hf : Flat cs) (hd : d < (owners cs).length) :
    ∃ s, (detLabels cs)[d]? = some (.det s) ∧ Right cs wl w d b (.det s) :=
  ⟨(owners cs)[d], by rw [(owners_flat hf).1]; simp [hd], by simp [Right, hd]⟩


theorem curvesFlat_eq (y : Arr α) (T : ℕ) (s : List ℕ) (h : y.shape = T :: s) (hT : 0 < T)
    (labels : List (List LabelPart)) :
    curvesFlat y T labels = .ok ((List.range s.prod).map fun j =>
      ⟨labels[j]?, (List.range T).map fun i => y.get (i :: Arr.unravel s j)⟩) := by
  have hp : y.shape.prod = T * s.prod := by rw [h]; simp
  have hdiv : y.shape.prod / T = s.prod := by rw [hp]; exact Nat.mul_div_cancel_left _ hT
  unfold curvesFlat Arr.reshape
  rw [if_neg (by rw [hp]; simp; omega), Except.map, hdiv, curves2]
  congr 1
  refine List.map_congr_left fun j hj => ?_
  have hj : j < s.prod := by simpa using hj
  congr 1
  refine List.map_congr_left fun i _ => ?_
  simp only [h, List.getD_cons_zero, List.getD_cons_succ, Arr.unravel]
  rw [Nat.mul_comm i, Nat.mul_add_div (by omega), Nat.div_eq_of_lt hj, Nat.mul_add_mod, Nat.mod_eq_of_lt hj, Nat.add_zero]

theorem unravel_one (n j : ℕ) : Arr.unravel [n] j = [j] := by simp [Arr.unravel]

theorem unravel_two {m n i j : ℕ} (hj : j < n) : Arr.unravel [m, n] (i * n + j) = [i, j] := by
  simp only [Arr.unravel, List.prod_cons, List.prod_nil, Nat.mul_one, Nat.div_one]
  rw [Nat.mul_comm i, Nat.mul_add_div (by omega), Nat.div_eq_of_lt hj, Nat.mul_add_mod, Nat.mod_eq_of_lt hj, Nat.add_zero]

theorem unravel_three {a m n k i j : ℕ} (hi : i < m) (hj : j < n) :
    Arr.unravel [a, m, n] ((k * m + i) * n + j) = [k, i, j] := by
  have h1 : i * n + j < m * n := by nlinarith
  have h2 : (k * m + i) * n + j = m * n * k + (i * n + j) := by ring
  have h3 := unravel_two (m := m) (i := i) hj
  simp only [Arr.unravel, List.prod_cons, List.prod_nil, Nat.mul_one, Nat.div_one] at h3 ⊢
  rw [h2, Nat.mul_add_div (by omega), Nat.div_eq_of_lt h1, Nat.mul_add_mod, Nat.mod_eq_of_lt h1, h3, Nat.add_zero]

theorem wlTimesDet_get {wls dets : List LabelPart} {w d : ℕ} {x y : LabelPart} (hx : wls[w]? = some x)
    (hy : dets[d]? = some y) : (wlTimesDet wls dets)[w * dets.length + d]? = some [x, y] := by
  have hd : d < dets.length := (List.getElem?_eq_some_iff.1 hy).1
  rw [wlTimesDet, flatMap_getElem? _ dets.length _ (by simp) w d hd, hx]
  simp [hy]

theorem batchTimes_get {n b j : ℕ} {l : List LabelPart} {x : LabelPart} (hb : b < n) (hx : l[j]? = some x) :
    (batchTimes n l)[b * l.length + j]? = some [.batch b, x] := by
  have hj : j < l.length := (List.getElem?_eq_some_iff.1 hx).1
  rw [batchTimes, flatMap_getElem? _ l.length _ (by simp) b j hj]
  simp [hb, hx]

theorem allLabels_get {n b w d : ℕ} {wls dets : List LabelPart} {x y : LabelPart} (hb : b < n)
    (hx : wls[w]? = some x) (hy : dets[d]? = some y) :
    (allLabels n wls dets)[(b * wls.length + w) * dets.length + d]? = some [.batch b, x, y] := by
  have hd : d < dets.length := (List.getElem?_eq_some_iff.1 hy).1
  have hw : w < wls.length := (List.getElem?_eq_some_iff.1 hx).1
  have h1 : w * dets.length + d < wls.length * dets.length := by nlinarith
  rw [show (b * wls.length + w) * dets.length + d = b * (wls.length * dets.length) + (w * dets.length + d) by ring,
    allLabels, flatMap_getElem? _ (wls.length * dets.length) _ (by simp [List.length_flatMap]) b _ h1]
  simp only [List.getElem?_range hb, Option.bind_some]
  rw [flatMap_getElem? _ dets.length _ (by simp) w d hd, hx]
  simp [hy]

theorem batchLabels_get {n b : ℕ} (hb : b < n) : (batchLabels n)[b]? = some [.batch b] := by simp [batchLabels, hb]

theorem time_fit {cs : List PlotComp} {wl : List ℚ} {T B : ℕ} (hf : Flat cs) (hpos : ∀ x ∈ wl, 0 ≤ x)
    (hT : 2 ≤ T) (hW0 : wl ≠ []) (hD0 : numDetectors cs ≠ 0) (hB0 : B ≠ 0) (v : ℕ → ℕ → ℕ → ℕ → α) :
    ∃ curves, curvesTime cs T wl (result T wl.length (numDetectors cs) B v).squeeze = .ok curves ∧
      LabelsFit (Names cs wl false B) wl.length (numDetectors cs) B
        (fun w d b => (List.range T).map fun t => v t w d b) curves := by
  have hDo := owners_length cs
  have hdl : (detLabels cs).length = numDetectors cs := by rw [(owners_flat hf).1]; simp [hDo]
  have hwl : (wlLabels wl).length = wl.length := by simp [wlLabels]
  have hWp : wl.length ≠ 0 := by simpa using hW0
  have hT1 : T ≠ 1 := by omega
  by_cases hW : wl.length = 1 <;> by_cases hD : numDetectors cs = 1 <;> by_cases hB : B = 1
  · have hsh : (result T wl.length (numDetectors cs) B v).squeeze.shape = [T] := by
      simp [Arr.squeeze, result, hT1, hW, hD, hB]
    rw [curvesTime, hsh]
    simp only
    refine ⟨_, rfl, ?_⟩
    rw [curve1]
    rw [show ∀ y : List α, [(⟨none, y⟩ : Curve α)] = (List.range 1).map fun _ => ⟨none, y⟩ from fun _ => rfl]
    refine labelsFit_of (by rw [hW, hD, hB]) ?_
    intro w hw d hd b hb
    obtain rfl : w = 0 := by omega
    obtain rfl : d = 0 := by omega
    obtain rfl : b = 0 := by omega
    constructor
    · rw [hsh]
      refine List.map_congr_left fun t _ => ?_
      simp [Arr.transpose, Arr.squeeze, result, Arr.unsqueeze, hT1, hW, hD, hB, List.range_succ, List.idxOf_cons]
    · simp [Names, hW, hDo, hD, hB]
  · have hsh : (result T wl.length (numDetectors cs) B v).squeeze.shape = [T, B] := by
      simp [Arr.squeeze, result, hT1, hW, hD, hB]
    rw [curvesTime, hsh]
    simp only
    rw [if_neg (by omega), if_neg (by omega)]
    refine ⟨_, rfl, ?_⟩
    rw [curves2, hsh]
    refine labelsFit_of (by simp [hW, hD, hB]) ?_
    intro w hw d hd b hb
    obtain rfl : w = 0 := by omega
    obtain rfl : d = 0 := by omega
    have he : enc wl.length (numDetectors cs) 0 0 b = b := by simp [enc, hW, hD]
    rw [he]
    constructor
    · refine List.map_congr_left fun t _ => ?_
      simp [Arr.transpose, Arr.squeeze, result, Arr.unsqueeze, hT1, hW, hD, hB, List.range_succ, List.idxOf_cons]
    · rw [batchLabels_get hb]
      simp [Names, hW, hDo, hD, hB, Right]
  · have hsh : (result T wl.length (numDetectors cs) B v).squeeze.shape = [T, numDetectors cs] := by
      simp [Arr.squeeze, result, hT1, hW, hD, hB]
    rw [curvesTime, hsh]
    simp only
    rw [if_neg (by omega), if_pos trivial]
    refine ⟨_, rfl, ?_⟩
    rw [curves2, hsh]
    refine labelsFit_of (by simp [hW, hD, hB]) ?_
    intro w hw d hd b hb
    obtain rfl : w = 0 := by omega
    obtain rfl : b = 0 := by omega
    have he : enc wl.length (numDetectors cs) 0 d 0 = d := by simp [enc, hW, hD]
    rw [he]
    constructor
    · refine List.map_congr_left fun t _ => ?_
      simp [Arr.transpose, Arr.squeeze, result, Arr.unsqueeze, hT1, hW, hD, hB, List.range_succ, List.idxOf_cons]
    · obtain ⟨p, hp, hp'⟩ := right_nm (cs := cs) (d := d) (b := 0) hpos hw
      obtain ⟨q, hq, hq'⟩ := right_det (wl := wl) (w := 0) (b := 0) hf (hDo ▸ hd)
      rw [List.getElem?_map, hq]
      simp [Names, hW, hDo, hD, hB, hq']
  · have hsh : (result T wl.length (numDetectors cs) B v).squeeze.shape = [T, numDetectors cs, B] := by
      simp [Arr.squeeze, result, hT1, hW, hD, hB]
    rw [curvesTime, hsh]
    simp only
    rw [if_neg (by omega), if_neg (by omega), if_pos trivial]
    rw [curvesFlat_eq _ T [B, numDetectors cs] (by simp [Arr.transpose, hsh]) (by omega)]
    refine ⟨_, rfl, labelsFit_of (by simp [hW, hD, hB, Nat.mul_comm]) ?_⟩
    intro w hw d hd b hb
    obtain rfl : w = 0 := by omega
    have he : enc wl.length (numDetectors cs) 0 d b = b * numDetectors cs + d := by simp [enc, hW, hD]
    rw [he]
    constructor
    · refine List.map_congr_left fun t _ => ?_
      rw [unravel_two hd]
      simp [Arr.transpose, Arr.squeeze, result, Arr.unsqueeze, hT1, hW, hD, hB, List.range_succ, List.idxOf_cons]
    · obtain ⟨p, hp, hp'⟩ := right_nm (cs := cs) (d := d) (b := b) hpos hw
      obtain ⟨q, hq, hq'⟩ := right_det (wl := wl) (w := 0) (b := b) hf (hDo ▸ hd)
      rw [← hdl, batchTimes_get hb hq]
      simp [Names, hW, hDo, hD, hB, hq', show Right cs wl 0 d b (.batch b) from rfl]
  · have hsh : (result T wl.length (numDetectors cs) B v).squeeze.shape = [T, wl.length] := by
      simp [Arr.squeeze, result, hT1, hW, hD, hB]
    rw [curvesTime, hsh]
    simp only
    rw [if_pos trivial]
    refine ⟨_, rfl, ?_⟩
    rw [curves2, hsh]
    refine labelsFit_of (by simp [hW, hD, hB]) ?_
    intro w hw d hd b hb
    obtain rfl : d = 0 := by omega
    obtain rfl : b = 0 := by omega
    have he : enc wl.length (numDetectors cs) w 0 0 = w := by simp [enc, hW, hD]
    rw [he]
    constructor
    · refine List.map_congr_left fun t _ => ?_
      simp [Arr.transpose, Arr.squeeze, result, Arr.unsqueeze, hT1, hW, hD, hB, List.range_succ, List.idxOf_cons]
    · obtain ⟨p, hp, hp'⟩ := right_nm (cs := cs) (d := 0) (b := 0) hpos hw
      obtain ⟨q, hq, hq'⟩ := right_det (wl := wl) (w := w) (b := 0) hf (hDo ▸ hd)
      rw [List.getElem?_map, hp]
      simp [Names, hW, hDo, hD, hB, hp']
  · have hsh : (result T wl.length (numDetectors cs) B v).squeeze.shape = [T, wl.length, B] := by
      simp [Arr.squeeze, result, hT1, hW, hD, hB]
    rw [curvesTime, hsh]
    simp only
    rw [if_neg (by omega), if_pos ⟨trivial, by omega⟩]
    rw [curvesFlat_eq _ T [B, wl.length] (by simp [Arr.transpose, hsh]) (by omega)]
    refine ⟨_, rfl, labelsFit_of (by simp [hW, hD, hB, Nat.mul_comm]) ?_⟩
    intro w hw d hd b hb
    obtain rfl : d = 0 := by omega
    have he : enc wl.length (numDetectors cs) w 0 b = b * wl.length + w := by simp [enc, hW, hD]
    rw [he]
    constructor
    · refine List.map_congr_left fun t _ => ?_
      rw [unravel_two hw]
      simp [Arr.transpose, Arr.squeeze, result, Arr.unsqueeze, hT1, hW, hD, hB, List.range_succ, List.idxOf_cons]
    · obtain ⟨p, hp, hp'⟩ := right_nm (cs := cs) (d := 0) (b := b) hpos hw
      obtain ⟨q, hq, hq'⟩ := right_det (wl := wl) (w := w) (b := b) hf (hDo ▸ hd)
      rw [← hwl, batchTimes_get hb hp]
      simp [Names, hW, hDo, hD, hB, hp', show Right cs wl w 0 b (.batch b) from rfl]
  · have hsh : (result T wl.length (numDetectors cs) B v).squeeze.shape = [T, wl.length, numDetectors cs] := by
      simp [Arr.squeeze, result, hT1, hW, hD, hB]
    rw [curvesTime, hsh]
    simp only
    rw [if_pos ⟨trivial, trivial⟩]
    rw [curvesFlat_eq _ T [wl.length, numDetectors cs] (by simp [Arr.transpose, hsh]) (by omega)]
    refine ⟨_, rfl, labelsFit_of (by simp [hW, hD, hB, Nat.mul_comm]) ?_⟩
    intro w hw d hd b hb
    obtain rfl : b = 0 := by omega
    have he : enc wl.length (numDetectors cs) w d 0 = w * numDetectors cs + d := by simp [enc, hW, hD]
    rw [he]
    constructor
    · refine List.map_congr_left fun t _ => ?_
      rw [unravel_two hd]
      simp [Arr.transpose, Arr.squeeze, result, Arr.unsqueeze, hT1, hW, hD, hB, List.range_succ, List.idxOf_cons]
    · obtain ⟨p, hp, hp'⟩ := right_nm (cs := cs) (d := d) (b := 0) hpos hw
      obtain ⟨q, hq, hq'⟩ := right_det (wl := wl) (w := w) (b := 0) hf (hDo ▸ hd)
      rw [← hdl, wlTimesDet_get hp hq]
      simp [Names, hW, hDo, hD, hB, hp', hq']
  · have hsh : (result T wl.length (numDetectors cs) B v).squeeze.shape = [T, wl.length, numDetectors cs, B] := by
      simp [Arr.squeeze, result, hT1, hW, hD, hB]
    rw [curvesTime, hsh]
    simp only
    rw [curvesFlat_eq _ T [B, wl.length, numDetectors cs] (by simp [Arr.transpose, hsh]) (by omega)]
    refine ⟨_, rfl, labelsFit_of (by simp; ring) ?_⟩
    intro w hw d hd b hb
    constructor
    · refine List.map_congr_left fun t _ => ?_
      rw [enc, unravel_three hw hd]
      simp [Arr.transpose, Arr.squeeze, result, Arr.unsqueeze, hT1, hW, hD, hB, List.range_succ, List.idxOf_cons]
    · obtain ⟨p, hp, hp'⟩ := right_nm (cs := cs) (d := d) (b := b) hpos hw
      obtain ⟨q, hq, hq'⟩ := right_det (wl := wl) (w := w) (b := b) hf (hDo ▸ hd)
      rw [enc]
      nth_rewrite 1 [← hwl]
      nth_rewrite 1 [← hdl]
      rw [allLabels_get hb hp hq]
      refine ⟨?_, fun _ _ => ⟨p, by simp⟩, fun _ => ⟨q, by simp⟩, fun _ => ⟨b, by simp⟩⟩
      intro r hr
      rcases (by simpa using hr : r = .batch b ∨ r = .nm p ∨ r = .det q) with rfl | rfl | rfl
      · rfl
      · exact hp'
      · exact hq'


theorem wl_fit {cs : List PlotComp} {wl : List ℚ} {B : ℕ} (hf : Flat cs)
    (hW : 2 ≤ wl.length) (hD0 : numDetectors cs ≠ 0) (hB0 : B ≠ 0) (v : ℕ → ℕ → ℕ → ℕ → α) :
    ∃ curves, curvesWl cs wl (result 1 wl.length (numDetectors cs) B v).squeeze = .ok curves ∧
      LabelsFit (Names cs wl true B) 1 (numDetectors cs) B
        (fun _ d b => (List.range wl.length).map fun w => v 0 w d b) curves := by
  have hDo := owners_length cs
  have hdl : (detLabels cs).length = numDetectors cs := by rw [(owners_flat hf).1]; simp [hDo]
  have hW1 : wl.length ≠ 1 := by omega
  by_cases hD : numDetectors cs = 1 <;> by_cases hB : B = 1
  · have hsh : (result 1 wl.length (numDetectors cs) B v).squeeze.shape = [wl.length] := by
      simp [Arr.squeeze, result, hW1, hD, hB]
    rw [curvesWl, hsh]
    simp only
    refine ⟨_, rfl, ?_⟩
    rw [curve1]
    rw [show ∀ y : List α, [(⟨none, y⟩ : Curve α)] = (List.range 1).map fun _ => ⟨none, y⟩ from fun _ => rfl]
    refine labelsFit_of (by rw [hD, hB]) ?_
    intro w hw d hd b hb
    obtain rfl : w = 0 := by omega
    obtain rfl : d = 0 := by omega
    obtain rfl : b = 0 := by omega
    constructor
    · rw [hsh]
      refine List.map_congr_left fun t _ => ?_
      simp [Arr.squeeze, result, Arr.unsqueeze, hW1, hD, hB]
    · simp [Names, hDo, hD, hB]
  · have hsh : (result 1 wl.length (numDetectors cs) B v).squeeze.shape = [wl.length, B] := by
      simp [Arr.squeeze, result, hW1, hD, hB]
    rw [curvesWl, hsh]
    simp only
    rw [if_neg (by omega)]
    refine ⟨_, rfl, ?_⟩
    rw [curves2, hsh]
    refine labelsFit_of (by simp [hD]) ?_
    intro w hw d hd b hb
    obtain rfl : w = 0 := by omega
    obtain rfl : d = 0 := by omega
    have he : enc 1 (numDetectors cs) 0 0 b = b := by simp [enc, hD]
    rw [he]
    constructor
    · refine List.map_congr_left fun t _ => ?_
      simp [Arr.squeeze, result, Arr.unsqueeze, hW1, hD, hB]
    · rw [batchLabels_get hb]
      simp [Names, hDo, hD, Right]
  · have hsh : (result 1 wl.length (numDetectors cs) B v).squeeze.shape = [wl.length, numDetectors cs] := by
      simp [Arr.squeeze, result, hW1, hD, hB]
    rw [curvesWl, hsh]
    simp only
    rw [if_pos trivial]
    refine ⟨_, rfl, ?_⟩
    rw [curves2, hsh]
    refine labelsFit_of (by simp [hB]) ?_
    intro w hw d hd b hb
    obtain rfl : w = 0 := by omega
    obtain rfl : b = 0 := by omega
    have he : enc 1 (numDetectors cs) 0 d 0 = d := by simp [enc]
    rw [he]
    constructor
    · refine List.map_congr_left fun t _ => ?_
      simp [Arr.squeeze, result, Arr.unsqueeze, hW1, hD, hB]
    · obtain ⟨q, hq, hq'⟩ := right_det (wl := wl) (w := 0) (b := 0) hf (hDo ▸ hd)
      rw [List.getElem?_map, hq]
      simp [Names, hB, hq']
  · have hsh : (result 1 wl.length (numDetectors cs) B v).squeeze.shape = [wl.length, numDetectors cs, B] := by
      simp [Arr.squeeze, result, hW1, hD, hB]
    rw [curvesWl, hsh]
    simp only
    rw [curvesFlat_eq _ wl.length [B, numDetectors cs] (by simp [Arr.transpose, hsh]) (by omega)]
    refine ⟨_, rfl, labelsFit_of (by simp) ?_⟩
    intro w hw d hd b hb
    obtain rfl : w = 0 := by omega
    have he : enc 1 (numDetectors cs) 0 d b = b * numDetectors cs + d := by simp [enc]
    rw [he]
    constructor
    · refine List.map_congr_left fun t _ => ?_
      rw [unravel_two hd]
      simp [Arr.transpose, Arr.squeeze, result, Arr.unsqueeze, hW1, hD, hB, List.range_succ, List.idxOf_cons]
    · obtain ⟨q, hq, hq'⟩ := right_det (wl := wl) (w := 0) (b := b) hf (hDo ▸ hd)
      rw [← hdl, batchTimes_get hb hq]
      simp [Names, hq', show Right cs wl 0 d b (.batch b) from rfl]

theorem axisUnit_ok {x : List ℚ} {m : ℚ} (hm : x.max? = some m) (h1 : (10 : ℝ) ^ (-13 : ℤ) ≤ m) (h2 : (m : ℝ) ≤ 10 ^ 17) :
    ∃ f, axisUnit x = .ok f ∧ -15 ≤ f ∧ f ≤ 12 ∧ f % 3 = 0 := by
  have h0 : (0 : ℝ) < m := lt_of_lt_of_le (by positivity) h1
  have hq : ¬ m ≤ 0 := by exact_mod_cast not_le.2 h0
  have l1 : (-13 : ℝ) ≤ Real.logb 10 m := by
    rw [Real.le_logb_iff_rpow_le (by norm_num) h0]
    calc (10 : ℝ) ^ (-13 : ℝ) = 10 ^ (-13 : ℤ) := by rw [← Real.rpow_intCast]; norm_num
      _ ≤ _ := h1
  have l2 : Real.logb 10 m ≤ 17 := by
    rw [Real.logb_le_iff_le_rpow (by norm_num) h0]
    calc (m : ℝ) ≤ 10 ^ 17 := h2
      _ = 10 ^ (17 : ℝ) := by rw [← Real.rpow_natCast]; norm_num
  have b1 : -12 ≤ realTrunc (Real.logb 10 m + 1 / 2) := by
    unfold realTrunc
    split_ifs with h
    · exact le_trans (by norm_num) (Int.floor_nonneg.2 h)
    · have : -13 < ⌈Real.logb 10 m + 1 / 2⌉ := Int.lt_ceil.2 (by push_cast; linarith)
      omega
  have b2 : realTrunc (Real.logb 10 m + 1 / 2) ≤ 17 := by
    unfold realTrunc
    split_ifs with h
    · have : ⌊Real.logb 10 m + 1 / 2⌋ < 18 := Int.floor_lt.2 (by push_cast; linarith)
      omega
    · have : ⌈Real.logb 10 m + 1 / 2⌉ ≤ 0 := Int.ceil_le.2 (by push_cast; linarith)
      omega
  have e1 : -15 ≤ axisExponent m ∧ axisExponent m ≤ 12 := by unfold axisExponent; omega
  refine ⟨axisExponent m, ?_, e1.1, e1.2, by unfold axisExponent; omega⟩
  rw [axisUnit, hm]
  simp only
  rw [if_neg hq, if_pos e1]

end PT
