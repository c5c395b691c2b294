import Verif.Model.Py

/-! Basic lemmas about `Except` programs and `pyTrunc`. -/

namespace PT

variable {ε α β : Type}

theorem bind_eq_ok {x : Except ε α} {f : α → Except ε β} {b : β} :
    (x >>= f) = .ok b ↔ ∃ a, x = .ok a ∧ f a = .ok b := by
  cases x <;> simp [bind, Except.bind]

theorem bind_eq_error {x : Except ε α} {f : α → Except ε β} {e : ε} :
    (x >>= f) = .error e ↔ x = .error e ∨ ∃ a, x = .ok a ∧ f a = .error e := by
  cases x <;> simp [bind, Except.bind]

@[simp] theorem ok_bind {a : α} {f : α → Except ε β} : ((Except.ok a : Except ε α) >>= f) = f a := rfl
@[simp] theorem error_bind {e : ε} {f : α → Except ε β} :
    ((Except.error e : Except ε α) >>= f) = .error e := rfl
@[simp] theorem pure_eq_ok {a : α} : (pure a : Except ε α) = .ok a := rfl
@[simp] theorem throw_eq_error {e : ε} : (throw e : Except ε α) = .error e := rfl

/-- The program succeeds and its result satisfies a decidable test (used in witnesses). -/
def okAnd (x : Except ε α) (p : α → Bool) : Bool :=
  match x with
  | .ok a => p a
  | .error _ => false

theorem okAnd_iff {x : Except ε α} {p : α → Bool} : okAnd x p = true ↔ ∃ a, x = .ok a ∧ p a = true := by
  cases x <;> simp [okAnd]

theorem pyDiv_eq_ok {x y z : ℚ} : pyDiv x y = .ok z ↔ y ≠ 0 ∧ z = x / y := by
  unfold pyDiv; split <;> simp_all [eq_comm]

theorem pyDiv_of_ne {x y : ℚ} (h : y ≠ 0) : pyDiv x y = .ok (x / y) := by simp [pyDiv, h]

theorem pyDiv_ne_error {x y : ℚ} {e : PyErr} (h : pyDiv x y = .error e) :
    y = 0 ∧ e = .zeroDivision := by
  unfold pyDiv at h; split at h <;> simp_all

theorem npDivArr_eq_ok {x : ℚ} {l m : List ℚ} :
    npDivArr x l = .ok m ↔ 0 ∉ l ∧ m = l.map (x / ·) := by
  unfold npDivArr; split <;> simp_all [eq_comm]

theorem npDivArr_error {x : ℚ} {l : List ℚ} {e : PyErr} (h : npDivArr x l = .error e) :
    0 ∈ l ∧ e = .unmodelled := by
  unfold npDivArr at h; split at h <;> simp_all

theorem pyTrunc_nonneg {q : ℚ} (h : 0 ≤ q) : pyTrunc q = ⌊q⌋ := by simp [pyTrunc, h]

theorem pyTrunc_neg {q : ℚ} (h : q < 0) : pyTrunc q = ⌈q⌉ := by simp [pyTrunc, not_le.mpr h]

theorem pyTrunc_int (n : ℤ) : pyTrunc (n : ℚ) = n := by
  unfold pyTrunc; split <;> simp

end PT
