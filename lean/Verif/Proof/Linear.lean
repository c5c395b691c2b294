import Verif.Proof.Buffer

/-!
# Linearity, restriction, shifts and prefixes of the simulation loop
-/

namespace PT

open Matrix Spec

variable {W B W' B' : Type} {m : ℕ}

theorem Fields.ext_val {x y : Fields m W B} (h : ∀ w b, x.val w b = y.val w b) : x = y := by
  obtain ⟨xr, xi⟩ := x
  obtain ⟨yr, yi⟩ := y
  have hr : xr = yr := by
    funext w
    ext k b
    exact congrArg Complex.re (congrFun (h w b) k)
  have hi : xi = yi := by
    funext w
    ext k b
    exact congrArg Complex.im (congrFun (h w b) k)
  rw [hr, hi]

/-! ## linear combinations -/

/-- A linear combination of two fields. -/
noncomputable def Fields.lin (x y : W → B → ℂ) (u v : Fields m W B) : Fields m W B :=
  ⟨fun w => Matrix.of fun k b => (x w b * u.val w b k + y w b * v.val w b k).re,
   fun w => Matrix.of fun k b => (x w b * u.val w b k + y w b * v.val w b k).im⟩

theorem lin_val (x y : W → B → ℂ) (u v : Fields m W B) (w : W) (b : B) :
    (Fields.lin x y u v).val w b = x w b • u.val w b + y w b • v.val w b := by
  funext k
  rfl

theorem read_lin (r : Reduced W) (x y : W → B → ℂ) (u v : List (Fields r.m W B))
    (h : u.length = v.length) (w : W) (b : B) :
    (readBuffer r (List.zipWith (Fields.lin x y) u v)).val w b =
      x w b • (readBuffer r u).val w b + y w b • (readBuffer r v).val w b := by
  funext k
  rw [Pi.add_apply, Pi.smul_apply, Pi.smul_apply, readBuffer_val, readBuffer_val, readBuffer_val,
    List.getElem?_zipWith]
  by_cases hk : r.tIdx k < u.length
  · rw [List.getElem?_eq_getElem hk, List.getElem?_eq_getElem (by omega)]
    simp [lin_val]
  · rw [List.getElem?_eq_none (by omega), List.getElem?_eq_none (by omega)]
    simp

theorem step_lin (r : Reduced W) (hact : r.numAct = 0) (cs : List (Actor W B)) (t : ℝ)
    (x y : W → B → ℂ) (s₁ s₂ : Fields r.m W B) (u v : List (Fields r.m W B)) (h : u.length = v.length) :
    stepField r cs t (Fields.lin x y s₁ s₂) (List.zipWith (Fields.lin x y) u v) =
      Fields.lin x y (stepField r cs t s₁ u) (stepField r cs t s₂ v) := by
  apply Fields.ext_val
  intro w b
  rw [lin_val]
  simp only [stepField_passive r hact, read_lin r x y u v h, lin_val]
  simp only [Matrix.mulVec_add, Matrix.mulVec_smul, smul_add]
  abel

theorem dropLast_zipWith {α β γ : Type} (f : α → β → γ) (l : List α) (l' : List β)
    (h : l.length = l'.length) :
    (List.zipWith f l l').dropLast = List.zipWith f l.dropLast l'.dropLast := by
  rw [List.dropLast_eq_take, List.dropLast_eq_take, List.dropLast_eq_take, List.take_zipWith,
    List.length_zipWith, h, Nat.min_self]

theorem simulate_lin (r : Reduced W) (hact : r.numAct = 0) (cs : List (Actor W B)) (x y : W → B → ℂ)
    (s₁ s₂ : ℕ → Fields r.m W B) (ts : List ℝ) (i : ℕ) (u v : List (Fields r.m W B))
    (h : u.length = v.length) :
    simulate r cs (fun j => Fields.lin x y (s₁ j) (s₂ j)) ts i (List.zipWith (Fields.lin x y) u v) =
      List.zipWith (Fields.lin x y) (simulate r cs s₁ ts i u) (simulate r cs s₂ ts i v) := by
  induction ts generalizing i u v with
  | nil => rfl
  | cons t ts ih =>
    simp only [simulate]
    rw [step_lin r hact cs t x y _ _ u v h, List.zipWith_cons_cons]
    congr 1
    rw [← ih]
    · congr 1
      unfold pushBuffer
      rw [List.zipWith_cons_cons, dropLast_zipWith _ _ _ h]
    · simp [pushBuffer, h]

/-! ## restriction to some wavelengths and batches -/

/-- The field at some wavelengths and batches. -/
def Fields.comap (g : W' → W) (f : B' → B) (u : Fields m W B) : Fields m W' B' :=
  ⟨fun w => Matrix.of fun k b => u.re (g w) k (f b), fun w => Matrix.of fun k b => u.im (g w) k (f b)⟩

/-- The reduced network at some wavelengths. -/
abbrev Reduced.comap (r : Reduced W) (g : W' → W) : Reduced W' :=
  { r with rS := r.rS ∘ g, iS := r.iS ∘ g, rC := r.rC ∘ g, iC := r.iC ∘ g }

theorem comap_val (g : W' → W) (f : B' → B) (u : Fields m W B) (w : W') (b : B') :
    (u.comap g f).val w b = u.val (g w) (f b) := rfl

theorem read_comap (r : Reduced W) (g : W' → W) (f : B' → B) (buf : List (Fields r.m W B)) (w : W') (b : B') :
    (readBuffer (r.comap g) (buf.map (Fields.comap g f))).val w b = (readBuffer r buf).val (g w) (f b) := by
  funext k
  refine (readBuffer_val (r.comap g) (buf.map (Fields.comap g f)) w b k).trans ?_
  rw [readBuffer_val]
  show ((buf.map (Fields.comap g f))[r.tIdx k]?.map fun x => x.val w b k).getD 0 = _
  rw [List.getElem?_map, Option.map_map]
  rfl

theorem step_comap (r : Reduced W) (hact : r.numAct = 0) (cs : List (Actor W B)) (cs' : List (Actor W' B'))
    (g : W' → W) (f : B' → B) (t t' : ℝ) (s : Fields r.m W B) (buf : List (Fields r.m W B)) :
    stepField (r.comap g) cs' t' (s.comap g f) (buf.map (Fields.comap g f)) =
      (stepField r cs t s buf).comap g f := by
  apply Fields.ext_val
  intro w b
  rw [comap_val, stepField_passive r hact]
  refine (stepField_passive (r.comap g) hact cs' t' (s.comap g f) (buf.map (Fields.comap g f)) w b).trans ?_
  rw [read_comap]
  rfl

theorem simulate_comap (r : Reduced W) (hact : r.numAct = 0) (cs : List (Actor W B))
    (cs' : List (Actor W' B')) (g : W' → W) (f : B' → B) (s : ℕ → Fields r.m W B) (ts : List ℝ) (i : ℕ)
    (buf : List (Fields r.m W B)) :
    simulate (r.comap g) cs' (fun j => (s j).comap g f) ts i (buf.map (Fields.comap g f)) =
      (simulate r cs s ts i buf).map (Fields.comap g f) := by
  induction ts generalizing i buf with
  | nil => rfl
  | cons t ts ih =>
    simp only [simulate, List.map_cons]
    rw [step_comap r hact cs cs' g f t t (s i) buf, ← ih]
    congr 2
    unfold pushBuffer
    rw [List.map_cons, List.map_dropLast]

/-! ## prefixes -/

theorem simulate_prefix (r : Reduced W) (cs : List (Actor W B)) (s s' : ℕ → Fields r.m W B)
    (ts us us' : List ℝ) (i : ℕ) (buf : List (Fields r.m W B))
    (h : ∀ j, i ≤ j → j < i + ts.length → s j = s' j) :
    (simulate r cs s (ts ++ us) i buf).take ts.length = (simulate r cs s' (ts ++ us') i buf).take ts.length := by
  induction ts generalizing i buf with
  | nil => simp
  | cons t ts ih =>
    simp only [List.cons_append, simulate, List.length_cons, List.take_succ_cons]
    rw [h i le_rfl (by simp), ih]
    intro j h1 h2
    exact h j (by omega) (by simp only [List.length_cons]; omega)

/-! ## shifts -/

theorem read_zero (r : Reduced W) (len : ℕ) (w : W) (b : B) :
    (readBuffer r (List.replicate len (zeroF r.m W B))).val w b = 0 := by
  funext k
  rw [readBuffer_val, List.getElem?_replicate]
  split <;> rfl

theorem zero_val (w : W) (b : B) : (zeroF m W B).val w b = 0 := rfl

theorem step_zero (r : Reduced W) (hact : r.numAct = 0) (cs : List (Actor W B)) (t : ℝ) (len : ℕ) :
    stepField r cs t (zeroF r.m W B) (List.replicate len (zeroF r.m W B)) = zeroF r.m W B := by
  apply Fields.ext_val
  intro w b
  rw [stepField_passive r hact, read_zero, zero_val, Matrix.mulVec_zero, add_zero, Matrix.mulVec_zero]

theorem push_zero {α : Type} (z : α) (len : ℕ) (h : 0 < len) :
    pushBuffer z (List.replicate len z) = List.replicate len z := by
  obtain ⟨k, rfl⟩ := Nat.exists_eq_succ_of_ne_zero h.ne'
  simp [pushBuffer, List.replicate_succ]

/-- Without active components the time does not matter. -/
theorem step_time (r : Reduced W) (hact : r.numAct = 0) (cs cs' : List (Actor W B)) (t t' : ℝ)
    (s : Fields r.m W B) (buf : List (Fields r.m W B)) :
    stepField r cs t s buf = stepField r cs' t' s buf := by
  apply Fields.ext_val
  intro w b
  rw [stepField_passive r hact, stepField_passive r hact]

theorem simulate_shift (r : Reduced W) (hact : r.numAct = 0) (cs : List (Actor W B))
    (s s' : ℕ → Fields r.m W B) (ts ts' : List ℝ) (i i' : ℕ) (buf : List (Fields r.m W B))
    (hl : ts.length = ts'.length) (h : ∀ j, j < ts.length → s (i + j) = s' (i' + j)) :
    simulate r cs s ts i buf = simulate r cs s' ts' i' buf := by
  induction ts generalizing ts' i i' buf with
  | nil =>
    cases ts' with
    | nil => rfl
    | cons _ _ => simp at hl
  | cons t ts ih =>
    cases ts' with
    | nil => simp at hl
    | cons t' ts' =>
      simp only [simulate]
      have h0 : s i = s' i' := h 0 (by simp)
      rw [h0, step_time r hact cs cs t t']
      congr 1
      apply ih
      · simpa using hl
      · intro j hj
        have := h (j + 1) (by simp only [List.length_cons]; omega)
        rwa [show i + (j + 1) = i + 1 + j by omega, show i' + (j + 1) = i' + 1 + j by omega] at this

theorem simulate_silent (r : Reduced W) (hact : r.numAct = 0) (cs : List (Actor W B))
    (s : ℕ → Fields r.m W B) (len : ℕ) (hlen : 0 < len) (ts us : List ℝ) (i : ℕ)
    (h : ∀ j, j < ts.length → s (i + j) = zeroF r.m W B) :
    simulate r cs s (ts ++ us) i (List.replicate len (zeroF r.m W B)) =
      List.replicate ts.length (zeroF r.m W B) ++
        simulate r cs s us (i + ts.length) (List.replicate len (zeroF r.m W B)) := by
  induction ts generalizing i with
  | nil => simp
  | cons t ts ih =>
    have h0 : s i = zeroF r.m W B := h 0 (by simp)
    simp only [List.cons_append, simulate, List.length_cons, List.replicate_succ]
    rw [h0, step_zero r hact, push_zero _ _ hlen, ih]
    · rw [show i + 1 + ts.length = i + (ts.length + 1) by omega]
    · intro j hj
      have := h (j + 1) (by simp only [List.length_cons]; omega)
      rwa [show i + (j + 1) = i + 1 + j by omega] at this

end PT
