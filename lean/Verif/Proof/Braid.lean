import Mathlib.Algebra.BigOperators.Group.List.Basic
import Mathlib.Tactic.Ring

/-! Proof support: brick walls of generators satisfying the braid relations. -/

namespace PT

/-- `n` elements of a monoid satisfying the braid relations. -/
structure Braids {M : Type*} [Monoid M] (s : ℕ → M) (n : ℕ) : Prop where
  far : ∀ i j, i + 2 ≤ j → j < n → s i * s j = s j * s i
  near : ∀ i, i + 1 < n → s i * s (i + 1) * s i = s (i + 1) * s i * s (i + 1)

section
variable {M : Type*} [Monoid M] (s : ℕ → M)

/-- `s (a + m - 1) ⋯ s (a + 1) s a`. -/
def stair (a : ℕ) : ℕ → M
  | 0 => 1
  | m + 1 => s (a + m) * stair a m

/-- `stair 0 1 * stair 0 2 * ⋯ * stair 0 n`. -/
def triangle : ℕ → M
  | 0 => 1
  | n + 1 => triangle n * stair s 0 (n + 1)

/-- The generator on place `t` of layer `K` of a brick wall. -/
def brick (n c K t : ℕ) : M := if c ≤ K + 2 * t ∧ K + 2 * t < c + n then s (K + 2 * t - c) else 1

/-- The first `K` generators on a diagonal of a brick wall. -/
def diagonal (n c : ℕ) : ℕ → ℕ → M
  | 0, _ => 1
  | K + 1, t => brick s n c K t * diagonal n c K t

/-- A layer. -/
def brickLayer (n c T K : ℕ) : M := ((List.range T).map (brick s n c K)).prod

/-- A brick wall of `K` layers. -/
def wall (n c T : ℕ) : ℕ → M
  | 0 => 1
  | K + 1 => brickLayer s n c T K * wall n c T K

variable {s}

theorem Braids.mono {n m : ℕ} (h : Braids s n) (hm : m ≤ n) : Braids s m :=
  ⟨fun i j h1 h2 => h.far i j h1 (by omega), fun i h1 => h.near i (by omega)⟩

theorem stair_far {n : ℕ} (h : Braids s n) (a j : ℕ) (hj : j < n) : ∀ m, a + m + 1 ≤ j → stair s a m * s j = s j * stair s a m
  | 0, _ => by simp [stair]
  | m + 1, hm => by
    rw [stair, mul_assoc, stair_far h a j hj m (by omega), ← mul_assoc, h.far _ _ (by omega) hj, mul_assoc]

theorem stair_shift {n : ℕ} (h : Braids s n) (j : ℕ) : ∀ m ≤ n, j + 1 < m → stair s 0 m * s (j + 1) = s j * stair s 0 m
  | 0, _, hj => by omega
  | m + 1, hm, hj => by
    by_cases he : m = j + 1
    · subst he
      rw [stair, stair, Nat.zero_add, Nat.zero_add, mul_assoc, mul_assoc, stair_far h 0 (j + 1) (by omega) j (by omega),
        ← mul_assoc, ← mul_assoc, ← h.near j (by omega)]
      simp only [mul_assoc]
    · rw [stair, mul_assoc, stair_shift h j m (by omega) (by omega), ← mul_assoc, ← mul_assoc, Nat.zero_add,
        h.far j m (by omega) (by omega)]

theorem stair_stair {n : ℕ} (h : Braids s n) (a : ℕ) : ∀ k, a + k < n →
    stair s 0 n * stair s (a + 1) k = stair s a k * stair s 0 n
  | 0, _ => by simp [stair]
  | k + 1, hk => by
    rw [stair, stair, ← mul_assoc, show a + 1 + k = a + k + 1 by omega, stair_shift h (a + k) n (le_refl _) (by omega), mul_assoc,
      stair_stair h a k (by omega), mul_assoc]

/-- Products of products, when the left factors can be moved to the front. -/
theorem prod_mul_of_commute (y x : ℕ → M) : ∀ l : List ℕ, l.Pairwise (fun t t' => x t * y t' = y t' * x t) →
    (l.map fun t => y t * x t).prod = (l.map y).prod * (l.map x).prod
  | [], _ => by simp
  | a :: l, h => by
    rw [List.pairwise_cons] at h
    have hc : ∀ l' : List ℕ, (∀ t ∈ l', x a * y t = y t * x a) → x a * (l'.map y).prod = (l'.map y).prod * x a := by
      intro l'
      induction l' with
      | nil => intro _; simp
      | cons b l' ih =>
        intro hb
        rw [List.map_cons, List.prod_cons, ← mul_assoc, hb b (by simp), mul_assoc, ih fun t ht => hb t (by simp [ht]), mul_assoc]
    rw [List.map_cons, List.prod_cons, prod_mul_of_commute y x l h.2, List.map_cons, List.map_cons, List.prod_cons,
      List.prod_cons, mul_assoc, ← mul_assoc (x a), hc l h.1]
    simp only [mul_assoc]

theorem diagonal_far {n : ℕ} (h : Braids s n) (c t t' K : ℕ) (ht : t < t') : ∀ k ≤ K,
    diagonal s n c k t * brick s n c K t' = brick s n c K t' * diagonal s n c k t
  | 0, _ => by simp [diagonal]
  | k + 1, hk => by
    rw [diagonal, mul_assoc, diagonal_far h c t t' K ht k (by omega), ← mul_assoc, ← mul_assoc]
    congr 1
    unfold brick
    split
    · split
      · exact h.far _ _ (by omega) (by omega)
      · simp
    · simp

/-- A brick wall is the product of its diagonals. -/
theorem wall_diagonals {n : ℕ} (h : Braids s n) (c T : ℕ) : ∀ K, wall s n c T K = ((List.range T).map (diagonal s n c K)).prod
  | 0 => by
    rw [wall, List.prod_eq_one]
    intro x hx
    obtain ⟨t, -, rfl⟩ := List.mem_map.mp hx
    rfl
  | K + 1 => by
    rw [wall, wall_diagonals h c T K, brickLayer, ← prod_mul_of_commute]
    · rfl
    · exact List.pairwise_lt_range.imp fun ht => diagonal_far h c _ _ K ht K (le_refl _)

theorem diagonal_back (n c t : ℕ) (ht : c ≤ 2 * t) : ∀ K,
    diagonal s n c K t = stair s (2 * t - c) (min K (n - (2 * t - c)))
  | 0 => by simp [diagonal, stair]
  | K + 1 => by
    rw [diagonal, diagonal_back n c t ht K, brick]
    split
    · rw [show min (K + 1) (n - (2 * t - c)) = K + 1 by omega, show min K (n - (2 * t - c)) = K by omega, stair,
        show 2 * t - c + K = K + 2 * t - c by omega]
    · rw [one_mul]
      congr 1
      omega

theorem diagonal_front (n c t : ℕ) (ht : 2 * t ≤ c) : ∀ K, diagonal s n c K t = stair s 0 (min n (K + 2 * t - c))
  | 0 => by
    rw [diagonal, show min n (0 + 2 * t - c) = 0 by omega, stair]
  | K + 1 => by
    rw [diagonal, diagonal_front n c t ht K, brick]
    split
    · rw [show min n (K + 1 + 2 * t - c) = (K + 2 * t - c) + 1 by omega, show min n (K + 2 * t - c) = K + 2 * t - c by omega,
        stair, Nat.zero_add]
    · rw [one_mul]
      congr 1
      omega

/-- A staircase moves through staircases. -/
theorem stair_list {n : ℕ} (h : Braids s n) (f g : ℕ → M) : ∀ l : List ℕ, (∀ t ∈ l, stair s 0 n * f t = g t * stair s 0 n) →
    stair s 0 n * (l.map f).prod = (l.map g).prod * stair s 0 n
  | [], _ => by simp
  | a :: l, hl => by
    rw [List.map_cons, List.prod_cons, ← mul_assoc, hl a (by simp), mul_assoc, stair_list h f g l fun t ht => hl t (by simp [ht]),
      List.map_cons, List.prod_cons, mul_assoc]

theorem wall_succ {n : ℕ} (h : Braids s (n + 1)) (c T : ℕ) (hc : n ≤ c) (hT : c / 2 < T) :
    wall s (n + 1) c T (n + 2) = wall s n (c + 1) T (n + 1) * stair s 0 (n + 1) := by
  rw [wall_diagonals h, wall_diagonals (h.mono (Nat.le_succ n))]
  obtain ⟨R, rfl⟩ : ∃ R, T = c / 2 + 1 + R := ⟨T - (c / 2 + 1), by omega⟩
  have e1 : ((List.range (c / 2 + 1 + R)).map (diagonal s (n + 1) c (n + 2))).prod =
      ((List.range (c / 2)).map fun t => stair s 0 (n + 2 + 2 * t - c)).prod * stair s 0 (n + 1) *
        ((List.range R).map fun t => diagonal s (n + 1) c (n + 2) (c / 2 + 1 + t)).prod := by
    rw [List.range_add, List.map_append, List.prod_append, List.range_succ, List.map_append, List.prod_append, List.map_map]
    congr 1
    congr 1
    · congr 1
      apply List.map_congr_left
      intro t ht
      rw [List.mem_range] at ht
      rw [diagonal_front _ _ _ (by omega)]
      congr 1
      omega
    · rw [List.map_cons, List.map_nil, List.prod_singleton, diagonal_front _ _ _ (by omega)]
      congr 1
      omega
  have e2 : ((List.range (c / 2 + 1 + R)).map (diagonal s n (c + 1) (n + 1))).prod =
      ((List.range (c / 2)).map fun t => stair s 0 (n + 2 + 2 * t - c)).prod *
        ((List.range R).map fun t => diagonal s n (c + 1) (n + 1) (c / 2 + 1 + t)).prod := by
    rw [List.range_add, List.map_append, List.prod_append, List.range_succ_eq_map, List.map_cons, List.prod_cons, List.map_map,
      List.map_map]
    congr 1
    rw [diagonal_front _ _ _ (by omega), show min n (n + 1 + 2 * 0 - (c + 1)) = 0 by omega, stair, one_mul]
    congr 1
    apply List.map_congr_left
    intro t ht
    rw [List.mem_range] at ht
    simp only [Function.comp_apply, Nat.succ_eq_add_one]
    rw [diagonal_front _ _ _ (by omega)]
    congr 1
    omega
  rw [e1, e2, mul_assoc, mul_assoc]
  congr 1
  refine stair_list h _ _ _ fun t ht => ?_
  rw [List.mem_range] at ht
  rw [diagonal_back _ _ _ (by omega), diagonal_back _ _ _ (by omega)]
  by_cases hlt : 2 * (c / 2 + 1 + t) - c ≤ n
  · rw [show min (n + 2) (n + 1 - (2 * (c / 2 + 1 + t) - c)) = n - (2 * (c / 2 + 1 + t) - (c + 1)) by omega,
      show min (n + 1) (n - (2 * (c / 2 + 1 + t) - (c + 1))) = n - (2 * (c / 2 + 1 + t) - (c + 1)) by omega,
      show 2 * (c / 2 + 1 + t) - c = 2 * (c / 2 + 1 + t) - (c + 1) + 1 by omega]
    exact stair_stair h _ _ (by omega)
  · rw [show min (n + 2) (n + 1 - (2 * (c / 2 + 1 + t) - c)) = 0 by omega,
      show min (n + 1) (n - (2 * (c / 2 + 1 + t) - (c + 1))) = 0 by omega, stair, stair, mul_one, one_mul]

/-- A brick wall of `n + 1` layers is a triangle. -/
theorem wall_triangle : ∀ (n c T : ℕ), Braids s n → n ≤ c + 1 → c + n < T → wall s n c T (n + 1) = triangle s n
  | 0, c, T, h, _, _ => by
    rw [wall_diagonals h, triangle, List.prod_eq_one]
    intro x hx
    obtain ⟨t, -, rfl⟩ := List.mem_map.mp hx
    rw [diagonal, diagonal, brick, if_neg (by omega), mul_one]
  | n + 1, c, T, h, hc, hT => by
    rw [wall_succ h c T (by omega) (by omega), wall_triangle n (c + 1) T (h.mono (Nat.le_succ n)) (by omega) (by omega), triangle]

end

end PT
