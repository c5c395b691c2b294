import Verif.Spec.Source

/-!
# C38, C39: source tensors
-/

namespace PT
open Spec

/-! ### Adding missing dimensions -/

theorem size_eq (x : NTensor) (h : x.names.length = x.shape.length) (n : Char) (hn : some n ∈ x.names) :
    dim x n = x.size n := by
  unfold dim NTensor.size
  obtain ⟨shape, names, elem⟩ := x
  simp only at h hn ⊢
  induction names generalizing shape with
  | nil => simp at hn
  | cons a names ih =>
    cases shape with
    | nil => simp at h
    | cons k shape =>
      by_cases ha : a = some n
      · subst ha; simp
      · rw [List.zip_cons_cons, List.find?_cons_of_neg (by simpa using ha), List.idxOf_cons_ne _ ha,
          List.getD_cons_succ]
        exact ih shape (by simpa using h) (by simpa [Ne.symm ha] using hn)

theorem dim_missing (x : NTensor) (n : Char) (hn : some n ∉ x.names) : dim x n = 1 := by
  unfold dim
  have : (x.names.zip x.shape).find? (fun d => d.1 == some n) = none := by
    rw [List.find?_eq_none]
    intro d hd
    have := (List.of_mem_zip hd).1
    simp only [beq_iff_eq]
    rintro h
    rw [h] at this
    exact hn this
  rw [this]

theorem back_size (x : NTensor) (h : x.names.length = x.shape.length) (m n : Char) (hn : some n ∈ x.names) :
    (x.unsqueezeBack m).size n = x.size n := by
  unfold NTensor.size NTensor.unsqueezeBack
  simp only
  rw [List.idxOf_append_of_mem hn]
  have : x.names.idxOf (some n) < x.shape.length := by rw [← h]; exact List.idxOf_lt_length_iff.2 hn
  rw [List.getD_eq_getElem?_getD, List.getElem?_append_left this, ← List.getD_eq_getElem?_getD]

theorem back_size_new (x : NTensor) (h : x.names.length = x.shape.length) (n : Char) (hn : some n ∉ x.names) :
    (x.unsqueezeBack n).size n = 1 := by
  unfold NTensor.size NTensor.unsqueezeBack
  simp only
  rw [List.idxOf_append_of_notMem hn, List.getD_eq_getElem?_getD, List.getElem?_append_right (by omega)]
  simp [h]

theorem addMissing_spec (ns : List Char) (x : NTensor) (h : x.names.length = x.shape.length) :
    (∀ f : Option Char → ℕ, (addMissing x ns).elem ((addMissing x ns).names.map f) = x.elem (x.names.map f)) ∧
    (∀ n, some n ∈ x.names → (addMissing x ns).size n = x.size n) ∧
    (∀ n ∈ ns, some n ∉ x.names → (addMissing x ns).size n = 1) := by
  induction ns generalizing x with
  | nil => exact ⟨fun f => rfl, fun n _ => rfl, fun n hn => absurd hn (by simp)⟩
  | cons m ns ih =>
    unfold addMissing
    split
    · rename_i hm
      have hm' : some m ∈ x.names := by simpa using hm
      obtain ⟨h1, h2, h3⟩ := ih x h
      refine ⟨h1, h2, fun n hn hx => ?_⟩
      rcases List.mem_cons.1 hn with rfl | hn
      · exact absurd hm' hx
      · exact h3 n hn hx
    · rename_i hm
      have hm' : some m ∉ x.names := by simpa using hm
      have hl : (x.unsqueezeBack m).names.length = (x.unsqueezeBack m).shape.length := by
        simp [NTensor.unsqueezeBack, h]
      obtain ⟨h1, h2, h3⟩ := ih (x.unsqueezeBack m) hl
      refine ⟨fun f => ?_, fun n hn => ?_, fun n hn hx => ?_⟩
      · rw [h1 f]
        simp [NTensor.unsqueezeBack]
      · rw [h2 n (by simp [NTensor.unsqueezeBack, hn]), back_size x h m n hn]
      · by_cases hnm : n = m
        · subst hnm
          rw [h2 n (by simp [NTensor.unsqueezeBack]), back_size_new x h n hx]
        · refine h3 n ?_ ?_
          · rcases List.mem_cons.1 hn with h | h
            · exact absurd h hnm
            · exact h
          · simp [NTensor.unsqueezeBack, hx, hnm]

theorem aligned_size (x : NTensor) (h : x.names.length = x.shape.length) (n : Char) (hn : n ∈ sourceNames) :
    (addMissing x sourceNames).size n = dim x n := by
  obtain ⟨-, h2, h3⟩ := addMissing_spec sourceNames x h
  by_cases hx : some n ∈ x.names
  · rw [h2 n hx, size_eq x h n hx]
  · rw [h3 n hn hx, dim_missing x n hx]

/-- The tensor after alignment. -/
theorem aligned (x : NTensor) (h : x.names.length = x.shape.length) (hn : Named x) :
    let y := alignTo (addMissing x sourceNames)
    y.c = dim x 'c' ∧ y.t = dim x 't' ∧ y.w = dim x 'w' ∧ y.s = dim x 's' ∧ y.b = dim x 'b' ∧
      ∀ c t w s b, y.elem c t w s b = x.elem (x.names.map (Coord.along ⟨c, t, w, s, b⟩)) := by
  refine ⟨aligned_size x h _ (by decide), aligned_size x h _ (by decide), aligned_size x h _ (by decide),
    aligned_size x h _ (by decide), aligned_size x h _ (by decide), fun c t w s b => ?_⟩
  unfold alignTo
  simp only
  rw [(addMissing_spec sourceNames x h).1]
  congr 1
  apply List.map_congr_left
  intro n hm
  obtain ⟨k, hk, rfl⟩ := hn n hm
  fin_cases hk <;> simp [Coord.along]

/-- Reading an aligned tensor with size-one dimensions broadcast is reading the original. -/
theorem read_aligned (x : NTensor) (h : x.Valid) (hn : Named x) (i : Coord) :
    readAt x i = x.elem (x.names.map (Coord.along
      ⟨if dim x 'c' = 1 then 0 else i.c, if dim x 't' = 1 then 0 else i.t, if dim x 'w' = 1 then 0 else i.w,
        if dim x 's' = 1 then 0 else i.s, if dim x 'b' = 1 then 0 else i.b⟩)) := by
  unfold readAt
  congr 1
  have key : ∀ d ∈ x.names.zip x.shape, ∀ n, d.1 = some n → dim x n = d.2 := by
    obtain ⟨shape, names, elem⟩ := x
    obtain ⟨hl, hd⟩ := h
    simp only at hl hd
    unfold dim
    simp only
    clear hn elem
    induction names generalizing shape with
    | nil => intro d hd; simp at hd
    | cons a names ih =>
      cases shape with
      | nil => intro d hd; simp at hd
      | cons k shape =>
        intro d hdm n hn
        rw [List.zip_cons_cons] at hdm ⊢
        rcases List.mem_cons.1 hdm with rfl | hdm'
        · simp only at hn
          subst hn; simp
        · have hne : a ≠ some n := by
            rintro rfl
            simp only [List.filterMap_cons, id] at hd
            have hm := (List.of_mem_zip hdm').1
            rw [hn] at hm
            exact (List.nodup_cons.1 hd).1 (List.mem_filterMap.2 ⟨_, hm, rfl⟩)
          rw [List.find?_cons_of_neg (by simpa using hne)]
          refine ih shape (by simpa using hl) ?_ d hdm' n hn
          cases a with
          | none => simpa using hd
          | some a => simp only [List.filterMap_cons, id] at hd; exact (List.nodup_cons.1 hd).2
  have hz : (x.names.zip x.shape).map Prod.fst = x.names := List.map_fst_zip (by rw [h.length])
  conv_rhs => rw [← hz, List.map_map]
  apply List.map_congr_left
  intro d hd
  have hm : d.1 ∈ x.names := (List.of_mem_zip hd).1
  obtain ⟨k, hk, hdk⟩ := hn _ hm
  have hkey := key d hd k hdk
  simp only [Function.comp_apply]
  rw [hdk, ← hkey]
  fin_cases hk <;> rfl

theorem nameDims_named (x : NTensor) (h : x.Valid) (hn : Named x) : nameDims x = .ok x ∧ checkNames x = .ok () := by
  have hall : x.names.all Option.isSome = true := by
    rw [List.all_eq_true]
    intro n hm
    obtain ⟨k, -, rfl⟩ := hn n hm
    rfl
  constructor
  · unfold nameDims
    have hle : x.shape.length ≤ 5 := by
      rw [← h.length]
      have hsub : x.names.filterMap id ⊆ sourceNames := by
        intro k hk
        obtain ⟨a, ha, hak⟩ := List.mem_filterMap.1 hk
        obtain ⟨k', hk', rfl⟩ := hn a ha
        simp only [id, Option.some.injEq] at hak
        subst hak
        exact hk'
      have h1 := (List.subperm_of_subset h.distinct hsub).length_le
      have h2 : (x.names.filterMap id).length = x.names.length := by
        rw [List.length_filterMap_eq_countP, List.countP_eq_length]
        intro a ha
        obtain ⟨k', hk', rfl⟩ := hn a ha
        rfl
      have h3 : sourceNames.length = 5 := rfl
      omega
    rw [if_neg (by omega), if_pos hall]
  · unfold checkNames
    rw [if_pos]
    rw [List.all_eq_true]
    intro n hm
    obtain ⟨k, hk, rfl⟩ := hn n hm
    simpa [sourceNames] using hk

/-! ### The remaining steps -/

theorem broadcastDim_ok (a b : ℕ) (h : a = 1 ∨ a = b) : broadcastDim a b = .ok b := by
  unfold broadcastDim
  rcases h with rfl | rfl
  · by_cases h : 1 = b
    · rw [if_pos h, h]
    · rw [if_neg h, if_pos rfl]
  · rw [if_pos rfl]

theorem broadcastDim_one (a : ℕ) : broadcastDim a 1 = .ok a := by
  unfold broadcastDim
  by_cases h : a = 1
  · rw [if_pos h]
  · rw [if_neg h, if_neg h, if_pos rfl]

theorem broadcastTo_ok (numT numWl numSrc : ℕ) (y : Tensor5) (hc : y.c = 2) (ht : y.t = 1 ∨ y.t = numT)
    (hw : y.w = 1 ∨ y.w = numWl) (hs : y.s = 1 ∨ y.s = numSrc) :
    broadcastTo numT numWl numSrc y = .ok ⟨2, numT, numWl, numSrc, y.b, fun c t w s b =>
      y.elem c (if y.t = 1 then 0 else t) (if y.w = 1 then 0 else w) (if y.s = 1 then 0 else s)
        (if y.b = 1 then 0 else b)⟩ := by
  unfold broadcastTo
  rw [broadcastDim_ok y.c 2 (.inr hc), broadcastDim_ok _ _ ht, broadcastDim_ok _ _ hw, broadcastDim_ok _ _ hs,
    broadcastDim_one]
  simp [hc]
  rfl

theorem checkSizes_ok (numWl numSrc : ℕ) (y : Tensor5)
    (hw : y.w = 1 ∨ y.w = numWl) (hs : y.s = 1 ∨ y.s = numSrc) : checkSizes numWl numSrc y = .ok () := by
  unfold checkSizes
  rw [if_neg (by omega), if_neg (by omega)]

theorem addImag_spec (y : Tensor5) (hc : y.c = 1 ∨ y.c = 2) :
    (addImag y).c = 2 ∧ (addImag y).t = y.t ∧ (addImag y).w = y.w ∧ (addImag y).s = y.s ∧ (addImag y).b = y.b ∧
      ∀ c t w s b, (addImag y).elem c t w s b =
        if y.c = 1 ∧ c ≠ 0 then 0 else y.elem (if y.c = 1 then 0 else c) t w s b := by
  unfold addImag
  split
  · rename_i h
    refine ⟨rfl, rfl, rfl, rfl, rfl, fun c t w s b => ?_⟩
    by_cases h0 : c = 0 <;> simp [h0, h]
  · rename_i h
    refine ⟨by omega, rfl, rfl, rfl, rfl, fun c t w s b => ?_⟩
    simp [h]

/-- What comes out for a tensor with names, if the lengths have been made to fit. -/
theorem handle_named (numT numWl numSrc numMc : ℕ) (x : NTensor) (h : x.Valid) (hn : Named x)
    (hc : dim x 'c' = 1 ∨ dim x 'c' = 2) (hm : numSrc ≤ numMc)
    (hw : dim x 'w' = 1 ∨ dim x 'w' = numWl) (hs : dim x 's' = 1 ∨ dim x 's' = numSrc)
    (z : Tensor5) (hz : fitTime numT (addImag (alignTo (addMissing x sourceNames))) = .ok z)
    (hz1 : z.t = 1 ∨ z.t = numT) (hz2 : z.c = 2 ∧ z.w = dim x 'w' ∧ z.s = dim x 's' ∧ z.b = dim x 'b') :
    handleSource numT numWl numSrc numMc x = .ok ⟨2, numT, numWl, numMc, dim x 'b', fun c t w k b =>
      if k < numSrc then z.elem c (if z.t = 1 then 0 else t) (if dim x 'w' = 1 then 0 else w)
        (if dim x 's' = 1 then 0 else k) (if dim x 'b' = 1 then 0 else b) else 0⟩ := by
  obtain ⟨h1, h2⟩ := nameDims_named x h hn
  obtain ⟨z1, z2, z3, z4⟩ := hz2
  unfold handleSource
  rw [h1]
  show (checkNames x).bind _ = _
  rw [h2]
  show (fitTime numT (addImag (alignTo (addMissing x sourceNames)))).bind _ = _
  rw [hz]
  show (checkSizes numWl numSrc z).bind _ = _
  rw [checkSizes_ok _ _ z (by rw [z2]; exact hw) (by rw [z3]; exact hs)]
  show (broadcastTo numT numWl numSrc z).bind _ = _
  rw [broadcastTo_ok _ _ _ z z1 hz1 (by rw [z2]; exact hw) (by rw [z3]; exact hs)]
  show padNodes numMc _ = _
  unfold padNodes
  rw [if_neg (by simpa using hm)]
  simp only [z2, z3, z4]

/-- C38: a source tensor with named dimensions, in any order, drives source `k` at time `t`, wavelength `w` and
batch `b` with the element at these coordinates; missing and size-one dimensions are broadcast; without a dimension `c` the
source is real; all other nodes get zero. -/
theorem C38_named (numT numWl numSrc numMc : ℕ) (x : NTensor) (h : x.Valid) (hn : Named x)
    (hc : dim x 'c' = 1 ∨ dim x 'c' = 2) (ht : dim x 't' = 1 ∨ dim x 't' = numT)
    (hw : dim x 'w' = 1 ∨ dim x 'w' = numWl) (hs : dim x 's' = 1 ∨ dim x 's' = numSrc) (hm : numSrc ≤ numMc) :
    ∃ y, handleSource numT numWl numSrc numMc x = .ok y ∧
      y.c = 2 ∧ y.t = numT ∧ y.w = numWl ∧ y.s = numMc ∧ y.b = dim x 'b' ∧
      ∀ c t w k b, y.elem c t w k b = if k < numSrc then drive x ⟨c, t, w, k, b⟩ else 0 := by
  obtain ⟨a1, a2, a3, a4, a5, a6⟩ := aligned x h.length hn
  obtain ⟨i1, i2, i3, i4, i5, i6⟩ := addImag_spec (alignTo (addMissing x sourceNames)) (by rw [a1]; exact hc)
  have hz : fitTime numT (addImag (alignTo (addMissing x sourceNames))) =
      .ok (addImag (alignTo (addMissing x sourceNames))) := by
    unfold fitTime
    rw [if_neg]
    rw [i2, a2]
    omega
  refine ⟨_, handle_named numT numWl numSrc numMc x h hn hc hm hw hs _ hz (by rw [i2, a2]; exact ht)
    ⟨i1, by rw [i3, a3], by rw [i4, a4], by rw [i5, a5]⟩, rfl, rfl, rfl, rfl, rfl, fun c t w k b => ?_⟩
  simp only
  split
  · rw [i6, a1, i2, a2]
    unfold drive
    rw [read_aligned x h hn, a6]
  · rfl

/-- A source with two samples in time and three batches, given as `(batch, time)`. -/
def exampleSource : NTensor := ⟨[3, 2], [some 'b', some 't'], fun idx => (10 * idx.getD 0 0 + idx.getD 1 0 : ℕ)⟩

theorem exampleSource_valid : exampleSource.Valid ∧ Named exampleSource := by
  refine ⟨⟨rfl, by decide⟩, ?_⟩
  intro n hn
  simp only [exampleSource, List.mem_cons, List.not_mem_nil, or_false] at hn
  rcases hn with rfl | rfl
  · exact ⟨'b', by decide, rfl⟩
  · exact ⟨'t', by decide, rfl⟩

example : ∃ y, handleSource 2 4 1 3 exampleSource = .ok y ∧ y.elem 0 1 3 0 2 = 21 ∧ y.elem 1 1 3 0 2 = 0 ∧
    y.elem 0 1 3 1 2 = 0 := by
  obtain ⟨hv, hn⟩ := exampleSource_valid
  obtain ⟨y, hy, -, -, -, -, -, he⟩ := C38_named 2 4 1 3 exampleSource hv hn (.inl (by decide)) (.inr (by decide))
    (.inl (by decide)) (.inl (by decide)) (by omega)
  refine ⟨y, hy, ?_, ?_, ?_⟩
  · rw [he]
    have : ¬ (dim exampleSource 'c' = 1 ∧ (0 : ℕ) ≠ 0) := by simp
    simp only [drive]
    rw [if_pos (by omega), if_neg this]
    simp [readAt, exampleSource, Coord.along]
    norm_num
  · rw [he, if_pos (by omega)]
    unfold drive
    rw [if_pos ⟨by decide, by simp⟩]
  · rw [he, if_neg (by omega)]

/-- C38: an unnamed tensor with four dimensions is read as `(t, w, s, b)`, … -/
theorem C38_unnamed_four (numT numWl numSrc numMc nt nw ns nb : ℕ) (f : List ℕ → ℝ) :
    handleSource numT numWl numSrc numMc ⟨[nt, nw, ns, nb], [none, none, none, none], f⟩ =
      handleSource numT numWl numSrc numMc
        ⟨[nt, nw, ns, nb], [some 't', some 'w', some 's', some 'b'], f⟩ := rfl

/-- … and one with five as `(c, t, w, s, b)`. -/
theorem C38_unnamed_five (numT numWl numSrc numMc nc nt nw ns nb : ℕ) (hc : nc ≤ 2) (f : List ℕ → ℝ) :
    handleSource numT numWl numSrc numMc ⟨[nc, nt, nw, ns, nb], [none, none, none, none, none], f⟩ =
      handleSource numT numWl numSrc numMc
        ⟨[nc, nt, nw, ns, nb], [some 'c', some 't', some 'w', some 's', some 'b'], f⟩ := by
  have e : nameDims ⟨[nc, nt, nw, ns, nb], [none, none, none, none, none], f⟩ =
      nameDims ⟨[nc, nt, nw, ns, nb], [some 'c', some 't', some 'w', some 's', some 'b'], f⟩ := by
    unfold nameDims
    simp [Nat.not_lt.2 hc, sourceNames]
  unfold handleSource
  rw [e]

example : handleSource 7 1 1 2 ⟨[7, 1, 1, 5], [none, none, none, none], fun _ => 1⟩ =
    handleSource 7 1 1 2 ⟨[7, 1, 1, 5], [some 't', some 'w', some 's', some 'b'], fun _ => 1⟩ :=
  C38_unnamed_four ..

/-- C38: a plain number drives all sources. -/
theorem C38_scalar (numT numWl numSrc numMc : ℕ) (hm : numSrc ≤ numMc) (v : ℝ) :
    ∃ y, handleSource numT numWl numSrc numMc ⟨[], [], fun _ => v⟩ = .ok y ∧
      y.t = numT ∧ y.w = numWl ∧ y.s = numMc ∧ y.b = 1 ∧
      ∀ c t w k b, y.elem c t w k b = if k < numSrc ∧ c = 0 then v else 0 := by
  obtain ⟨y, hy, -, h1, h2, h3, h4, h5⟩ := C38_named numT numWl numSrc numMc ⟨[], [], fun _ => v⟩
    ⟨rfl, by simp⟩ (fun n hn => by simp at hn) (.inl rfl) (.inl rfl) (.inl rfl) (.inl rfl) hm
  refine ⟨y, hy, h1, h2, h3, h4, fun c t w k b => ?_⟩
  rw [h5]
  by_cases hk : k < numSrc <;> by_cases hc : c = 0 <;> simp [hk, hc, drive, readAt, dim]

example : ∃ y, handleSource 10 2 1 3 ⟨[], [], fun _ => 5⟩ = .ok y ∧ y.elem 0 7 1 0 0 = 5 := by
  obtain ⟨y, h, -, -, -, -, he⟩ := C38_scalar 10 2 1 3 (by omega) 5
  exact ⟨y, h, by rw [he]; simp⟩

/-- C38: tensors with some but not all dimensions named are rejected. -/
theorem C38_partly_named (numT numWl numSrc numMc : ℕ) (x : NTensor)
    (h1 : ∃ n ∈ x.names, n = none) (h2 : ∃ n ∈ x.names, n ≠ none) :
    handleSource numT numWl numSrc numMc x = .error .valueError := by
  have : nameDims x = .error .valueError := by
    unfold nameDims
    split
    · rfl
    · rw [if_neg, if_pos]
      · rw [List.any_eq_true]
        obtain ⟨n, hn, hne⟩ := h2
        exact ⟨n, hn, by simpa [Option.isSome_iff_ne_none] using hne⟩
      · rw [List.all_eq_true]
        intro hall
        obtain ⟨n, hn, rfl⟩ := h1
        simpa using hall _ hn
  unfold handleSource
  rw [this]
  rfl

example : handleSource 7 1 1 2 ⟨[7, 3], [some 't', none], fun _ => 1⟩ = .error .valueError :=
  C38_partly_named 7 1 1 2 _ ⟨none, by simp, rfl⟩ ⟨some 't', by simp, by simp⟩

/-- C38: unnamed tensors with one, two or three dimensions are rejected, and so are tensors with more than five. -/
theorem C38_bad_dimension (numT numWl numSrc numMc : ℕ) (x : NTensor)
    (h : (∀ n ∈ x.names, n = none) ∧ x.names.length = x.shape.length ∧ 0 < x.shape.length ∧ x.shape.length < 4 ∨
      5 < x.shape.length) :
    handleSource numT numWl numSrc numMc x = .error .valueError := by
  have : nameDims x = .error .valueError := by
    unfold nameDims
    rcases h with ⟨h1, h2, h3, h4⟩ | h
    · rw [if_neg (by omega), if_neg, if_neg, if_neg (by omega), if_neg (by omega)]
      · rw [List.any_eq_true]
        rintro ⟨n, hn, hs⟩
        rw [h1 n hn] at hs
        simp at hs
      · rw [List.all_eq_true]
        intro hall
        obtain ⟨n, hn⟩ := List.exists_mem_of_length_pos (l := x.names) (by omega)
        have := hall n hn
        rw [h1 n hn] at this
        simp at this
    · rw [if_pos h]
  unfold handleSource
  rw [this]
  rfl

example : handleSource 7 1 1 2 ⟨[7, 3], [none, none], fun _ => 1⟩ = .error .valueError :=
  C38_bad_dimension 7 1 1 2 _ (.inl ⟨by simp, rfl, by simp, by simp⟩)

/-- C38: other dimension names are rejected. -/
theorem C38_bad_name (numT numWl numSrc numMc : ℕ) (x : NTensor) (n : Char) (hn : some n ∈ x.names)
    (hb : n ∉ ['c', 't', 'w', 's', 'b']) (hall : ∀ m ∈ x.names, m ≠ none) (hd : x.shape.length ≤ 5) :
    handleSource numT numWl numSrc numMc x = .error .valueError := by
  have h1 : nameDims x = .ok x := by
    unfold nameDims
    rw [if_neg (by omega), if_pos]
    rw [List.all_eq_true]
    intro m hm
    have := hall m hm
    simpa [Option.isSome_iff_ne_none] using this
  have h2 : checkNames x = .error .valueError := by
    unfold checkNames
    rw [if_neg]
    rw [List.all_eq_true]
    intro hc
    have := hc _ hn
    simp only [Option.elim] at this
    exact hb (by simpa [sourceNames] using this)
  unfold handleSource
  rw [h1]
  show (checkNames x).bind _ = _
  rw [h2]
  rfl

example : handleSource 7 1 1 2 ⟨[7, 3], [some 't', some 'x'], fun _ => 1⟩ = .error .valueError :=
  C38_bad_name 7 1 1 2 _ 'x' (by simp) (by decide) (by simp) (by simp)

/-- C38: a wrong number of wavelengths or sources is rejected. -/
theorem C38_wrong_size (numT numWl numSrc numMc : ℕ) (x : NTensor) (h : x.Valid) (hn : Named x)
    (hc : dim x 'c' = 1 ∨ dim x 'c' = 2) (ht : dim x 't' ≤ 1 ∨ numT ≤ dim x 't')
    (hw : (1 < dim x 'w' ∧ dim x 'w' ≠ numWl) ∨ (1 < dim x 's' ∧ dim x 's' ≠ numSrc)) :
    handleSource numT numWl numSrc numMc x = .error .valueError := by
  obtain ⟨h1, h2⟩ := nameDims_named x h hn
  obtain ⟨a1, a2, a3, a4, a5, a6⟩ := aligned x h.length hn
  obtain ⟨i1, i2, i3, i4, i5, i6⟩ := addImag_spec (alignTo (addMissing x sourceNames)) (by rw [a1]; exact hc)
  have hz : ∃ z, fitTime numT (addImag (alignTo (addMissing x sourceNames))) = .ok z ∧ z.w = dim x 'w' ∧
      z.s = dim x 's' := by
    unfold fitTime
    split
    · rw [if_neg (by rw [i2, a2] at *; omega)]
      exact ⟨_, rfl, by rw [← a3, ← i3], by rw [← a4, ← i4]⟩
    · exact ⟨_, rfl, by rw [← a3, ← i3], by rw [← a4, ← i4]⟩
  obtain ⟨z, hz, zw, zs⟩ := hz
  have hck : checkSizes numWl numSrc z = .error .valueError := by
    unfold checkSizes
    rw [zw, zs]
    rcases hw with hw | hw
    · rw [if_pos hw]
    · rw [if_pos hw]
      split <;> rfl
  unfold handleSource
  rw [h1]
  show (checkNames x).bind _ = _
  rw [h2]
  show (fitTime numT (addImag (alignTo (addMissing x sourceNames)))).bind _ = _
  rw [hz]
  show (checkSizes numWl numSrc z).bind _ = _
  rw [hck]
  rfl

example : handleSource 7 3 1 2 ⟨[2], [some 'w'], fun _ => 1⟩ = .error .valueError :=
  C38_wrong_size 7 3 1 2 _ ⟨rfl, by decide⟩ (fun n hn => ⟨'w', by decide, by simpa using hn⟩) (.inl (by decide))
    (.inl (by decide)) (.inl (by decide))

/-! ## C39 -/

/-- C39 (what holds, 1): a source longer than the simulation is cut. -/
theorem C39_cut_partial (numT numWl numSrc numMc : ℕ) (x : NTensor) (h : x.Valid) (hn : Named x)
    (hc : dim x 'c' = 1 ∨ dim x 'c' = 2) (ht : numT < dim x 't') (hT : 1 ≤ numT)
    (hw : dim x 'w' = 1 ∨ dim x 'w' = numWl) (hs : dim x 's' = 1 ∨ dim x 's' = numSrc) (hm : numSrc ≤ numMc) :
    ∃ y, handleSource numT numWl numSrc numMc x = .ok y ∧ y.t = numT ∧
      ∀ c t w k b, t < numT → y.elem c t w k b = if k < numSrc then drive x ⟨c, t, w, k, b⟩ else 0 := by
  obtain ⟨a1, a2, a3, a4, a5, a6⟩ := aligned x h.length hn
  obtain ⟨i1, i2, i3, i4, i5, i6⟩ := addImag_spec (alignTo (addMissing x sourceNames)) (by rw [a1]; exact hc)
  have hz : fitTime numT (addImag (alignTo (addMissing x sourceNames))) =
      .ok { addImag (alignTo (addMissing x sourceNames)) with t := numT } := by
    unfold fitTime
    rw [if_pos (by rw [i2, a2]; omega), if_neg (by rw [i2, a2]; omega)]
  refine ⟨_, handle_named numT numWl numSrc numMc x h hn hc hm hw hs _ hz (.inr rfl)
    ⟨i1, by rw [← a3, ← i3], by rw [← a4, ← i4], by rw [← a5, ← i5]⟩, rfl, fun c t w k b htn => ?_⟩
  simp only
  split
  · rw [i6, a1]
    unfold drive
    rw [read_aligned x h hn, a6]
    simp only
    have e1 : (if numT = 1 then 0 else t) = if dim x 't' = 1 then 0 else t := by
      rw [if_neg (show dim x 't' ≠ 1 by omega)]
      split <;> omega
    rw [e1]
  · rfl

example : ∃ y, handleSource 1 1 1 2 exampleSource = .ok y ∧ y.t = 1 := by
  obtain ⟨hv, hn⟩ := exampleSource_valid
  obtain ⟨y, hy, h, -⟩ := C39_cut_partial 1 1 1 2 exampleSource hv hn (.inl (by decide)) (by decide) (by omega)
    (.inl (by decide)) (.inl (by decide)) (by omega)
  exact ⟨y, hy, h⟩

/-- C39 (what holds, 2): a source with two samples is continued with zeros. -/
theorem C39_two_samples_partial (numT numWl numSrc numMc : ℕ) (x : NTensor) (h : x.Valid) (hn : Named x)
    (hc : dim x 'c' = 1 ∨ dim x 'c' = 2) (ht : dim x 't' = 2) (hT : 2 < numT)
    (hw : dim x 'w' = 1 ∨ dim x 'w' = numWl) (hs : dim x 's' = 1 ∨ dim x 's' = numSrc) (hm : numSrc ≤ numMc) :
    ∃ y, handleSource numT numWl numSrc numMc x = .ok y ∧ y.t = numT ∧
      ∀ c t w k b, y.elem c t w k b = if k < numSrc ∧ t < dim x 't' then drive x ⟨c, t, w, k, b⟩ else 0 := by
  obtain ⟨a1, a2, a3, a4, a5, a6⟩ := aligned x h.length hn
  obtain ⟨i1, i2, i3, i4, i5, i6⟩ := addImag_spec (alignTo (addMissing x sourceNames)) (by rw [a1]; exact hc)
  generalize hy0 : addImag (alignTo (addMissing x sourceNames)) = y0 at i1 i2 i3 i4 i5 i6
  have hz : fitTime numT y0 = .ok { y0 with
      t := y0.t + (numT - y0.c), elem := fun c t w s b => if t < y0.t then y0.elem c t w s b else 0 } := by
    unfold fitTime
    rw [if_pos (by rw [i2, a2]; omega), if_pos (by rw [i2, a2]; omega), if_neg (by rw [i1]; omega), if_neg (by rw [i1]; simp)]
  have hz' := (congrArg (fitTime numT) hy0).trans hz
  have e2 : y0.t + (numT - y0.c) = numT := by rw [i2, a2, ht, i1]; omega
  refine ⟨_, handle_named numT numWl numSrc numMc x h hn hc hm hw hs _ hz' (.inr e2)
    ⟨i1, by rw [← a3, ← i3], by rw [← a4, ← i4], by rw [← a5, ← i5]⟩, rfl, fun c t w k b => ?_⟩
  simp only [e2]
  rw [if_neg (show numT ≠ 1 by omega), show y0.t = dim x 't' by rw [i2, a2]]
  by_cases hk : k < numSrc
  · by_cases htt : t < dim x 't'
    · rw [if_pos hk, if_pos htt, if_pos (show k < numSrc ∧ t < dim x 't' from ⟨hk, htt⟩), i6, a1]
      unfold drive
      rw [read_aligned x h hn, a6]
      simp only
      rw [if_neg (show dim x 't' ≠ 1 by omega)]
    · rw [if_pos hk, if_neg htt, if_neg (show ¬ (k < numSrc ∧ t < dim x 't') from fun h => htt h.2)]
  · rw [if_neg hk, if_neg (show ¬ (k < numSrc ∧ t < dim x 't') from fun h => hk h.1)]

example : ∃ y, handleSource 9 1 1 2 exampleSource = .ok y ∧ y.t = 9 := by
  obtain ⟨hv, hn⟩ := exampleSource_valid
  obtain ⟨y, hy, h, -⟩ := C39_two_samples_partial 9 1 1 2 exampleSource hv hn (.inl (by decide)) (by decide) (by omega)
    (.inl (by decide)) (.inl (by decide)) (by omega)
  exact ⟨y, hy, h⟩

/-- C39 is violated: every source with more than two samples that is shorter than the simulation is
rejected with a `RuntimeError` (the zeros appended do not make up for the missing samples). -/
theorem C39_violation (numT numWl numSrc numMc : ℕ) (x : NTensor) (h : x.Valid) (hn : Named x)
    (hc : dim x 'c' = 1 ∨ dim x 'c' = 2) (ht : 2 < dim x 't') (hT : dim x 't' < numT)
    (hw : dim x 'w' = 1 ∨ dim x 'w' = numWl) (hs : dim x 's' = 1 ∨ dim x 's' = numSrc) :
    handleSource numT numWl numSrc numMc x = .error .runtimeError := by
  obtain ⟨h1, h2⟩ := nameDims_named x h hn
  obtain ⟨a1, a2, a3, a4, a5, a6⟩ := aligned x h.length hn
  obtain ⟨i1, i2, i3, i4, i5, i6⟩ := addImag_spec (alignTo (addMissing x sourceNames)) (by rw [a1]; exact hc)
  generalize hy0 : addImag (alignTo (addMissing x sourceNames)) = y0 at i1 i2 i3 i4 i5 i6
  obtain ⟨z, hz0⟩ : ∃ z : Tensor5, z = { y0 with
      t := y0.t + (numT - y0.c), elem := fun c t w s b => if t < y0.t then y0.elem c t w s b else 0 } := ⟨_, rfl⟩
  have hz : fitTime numT y0 = .ok z := by
    rw [hz0]
    unfold fitTime
    rw [if_pos (by rw [i2, a2]; omega), if_pos (by rw [i2, a2]; omega), if_neg (by rw [i1]; omega), if_neg (by rw [i1]; simp)]
  have zt : z.t = dim x 't' + (numT - 2) := by rw [hz0, ← a2, ← i2]; simp only [i1]
  have zw : z.w = dim x 'w' := by rw [hz0, ← a3, ← i3]
  have zs : z.s = dim x 's' := by rw [hz0, ← a4, ← i4]
  have zc : z.c = 2 := by rw [hz0]; exact i1
  unfold handleSource
  rw [h1]
  show (checkNames x).bind _ = _
  rw [h2]
  show (fitTime numT (addImag (alignTo (addMissing x sourceNames)))).bind _ = _
  rw [hy0, hz]
  show (checkSizes numWl numSrc z).bind _ = _
  rw [checkSizes_ok _ _ z (by rw [zw]; exact hw) (by rw [zs]; exact hs)]
  show (broadcastTo numT numWl numSrc z).bind _ = _
  have : broadcastTo numT numWl numSrc z = .error .runtimeError := by
    unfold broadcastTo
    rw [broadcastDim_ok z.c 2 (.inr zc)]
    show (broadcastDim z.t numT).bind _ = _
    have : broadcastDim z.t numT = .error .runtimeError := by
      unfold broadcastDim
      rw [if_neg (by omega), if_neg (by omega), if_neg (by omega)]
    rw [this]
    rfl
  rw [this]
  rfl

/-- A source with three samples. -/
def threeSamples : NTensor := ⟨[3], [some 't'], fun idx => (idx.getD 0 0 : ℕ)⟩

example : handleSource 10 1 1 2 threeSamples = .error .runtimeError :=
  C39_violation 10 1 1 2 _ ⟨rfl, by decide⟩ (fun n hn => ⟨'t', by decide, by simpa [threeSamples] using hn⟩) (.inl (by decide))
    (by decide) (by decide) (.inl (by decide)) (.inl (by decide))

/-! ### A call with a tensor -/

/-- C38: calling a network with a tensor is simulating it with sources that emit what the tensor says, with the batch of the
tensor. -/
theorem C38_forward {numWl : ℕ} (r : Reduced (Fin numWl)) (env : SimEnv) (x : NTensor)
    (cs : (b : ℕ) → List (Actor (Fin numWl) (Fin b))) (h : x.Valid) (hn : Named x)
    (hc : dim x 'c' = 1 ∨ dim x 'c' = 2) (ht : dim x 't' = 1 ∨ dim x 't' = env.t.length)
    (hw : dim x 'w' = 1 ∨ dim x 'w' = numWl) (hs : dim x 's' = 1 ∨ dim x 's' = r.numSrc) (hm : r.numSrc ≤ r.m) :
    forwardTensor r env x cs =
      (forwardReduced r env (cs (dim x 'b')) fun t k w b =>
        (drive x ⟨0, t, w, k, b⟩, drive x ⟨1, t, w, k, b⟩)).map fun out => ⟨dim x 'b', out⟩ := by
  obtain ⟨y, hy, -, -, -, -, hb, he⟩ := C38_named env.t.length numWl r.numSrc r.m x h hn hc ht hw hs hm
  unfold forwardTensor
  rw [hy]
  show (forwardReduced r env (cs y.b) _).map _ = _
  obtain ⟨yc, yt, yw, ys, yb, ye⟩ := y
  simp only at hb he
  subst hb
  have hsrc : (fun (i : ℕ) => padSource r.m r.numSrc fun k (w : Fin numWl) (b : Fin (dim x 'b')) => (ye 0 i w k b, ye 1 i w k b)) =
      fun (i : ℕ) => padSource r.m r.numSrc fun k (w : Fin numWl) (b : Fin (dim x 'b')) => (drive x ⟨0, i, w, k, b⟩, drive x ⟨1, i, w, k, b⟩) := by
    funext i
    unfold padSource
    congr 1 <;> funext w <;> ext k b <;> simp only [Matrix.of_apply, he] <;> split_ifs <;> rfl
  unfold forwardReduced
  rw [hsrc]

/-- A source and a detector connected to each other, after initialization. -/
noncomputable def exampleReduced : Reduced (Fin 4) :=
  ⟨2, fun _ => 0, fun _ => 0, fun _ => Matrix.of fun i j => if i = j then 0 else 1, fun _ => 0, fun _ => 0, fun _ => 0, 1, 1, 1, 0⟩

example : forwardTensor exampleReduced ⟨some 1, false, [0, 1]⟩ exampleSource (fun _ => []) =
    (forwardReduced exampleReduced ⟨some 1, false, [0, 1]⟩ ([] : List (Actor (Fin 4) (Fin (dim exampleSource 'b')))) fun t k w b =>
      (drive exampleSource ⟨0, t, w, k, b⟩, drive exampleSource ⟨1, t, w, k, b⟩)).map fun out => ⟨dim exampleSource 'b', out⟩ :=
  C38_forward exampleReduced ⟨some 1, false, [0, 1]⟩ exampleSource (fun _ => []) exampleSource_valid.1 exampleSource_valid.2
    (.inl (by decide)) (.inr (by decide)) (.inl (by decide)) (.inl (by decide)) (by decide)

end PT
