import Mathlib.Tactic.Linarith
import Mathlib.Algebra.Order.Floor.Semifield
import Mathlib.Tactic.FieldSimp
import Mathlib.Tactic.Ring
import Mathlib.Tactic.Positivity
import Mathlib.Tactic.LinearCombination
import Verif.Model.Signal

/-!
# C49, C70, C71, C72: bit streams
-/

namespace PT

/-! ## Rounding, repetition and striding -/

theorem toRate_int (n : ℤ) (h : 0 ≤ n) : toRate (n : ℚ) = n := by
  have h' : (0 : ℚ) ≤ n := by exact_mod_cast h
  unfold toRate pyTrunc
  rw [if_pos (by linarith)]
  rw [Int.floor_eq_iff]
  constructor <;> push_cast <;> linarith

theorem toRate_nat (n : ℕ) : toRate (n : ℚ) = n := by
  have := toRate_int (n : ℤ) (Int.natCast_nonneg n)
  simpa using this

variable {α : Type}

theorem repeatEach_length (k : ℕ) (x : List α) : (repeatEach k x).length = x.length * k := by
  simp [repeatEach, List.length_flatMap]

theorem repeatEach_get (k : ℕ) (hk : 0 < k) (x : List α) (j : ℕ) : (repeatEach k x)[j]? = x[j / k]? := by
  induction x generalizing j with
  | nil => simp [repeatEach]
  | cons r x ih =>
    have : repeatEach k (r :: x) = List.replicate k r ++ repeatEach k x := rfl
    rw [this]
    by_cases hj : j < k
    · rw [List.getElem?_append_left (by simpa using hj), Nat.div_eq_of_lt hj]
      simp [hj]
    · push Not at hj
      rw [List.getElem?_append_right (by simpa using hj), ih]
      have : j / k = (j - k) / k + 1 := by
        conv_lhs => rw [← Nat.sub_add_cancel hj, Nat.add_div_right _ hk]
      rw [this]
      simp

theorem stride_nil (k : ℕ) : stride k ([] : List α) = [] := by rw [stride]

theorem stride_get (k : ℕ) (hk : 0 < k) (x : List α) (i : ℕ) : (stride k x)[i]? = x[i * k]? := by
  induction i generalizing x with
  | zero => cases x with
    | nil => rw [stride_nil]; simp
    | cons r x => rw [stride]; simp
  | succ i ih => cases x with
    | nil => rw [stride_nil]; simp
    | cons r x =>
      rw [stride, List.getElem?_cons_succ, ih, List.getElem?_drop]
      have : (i + 1) * k = (k - 1 + i * k) + 1 := by
        rw [Nat.add_mul]; omega
      rw [this, List.getElem?_cons_succ]

theorem stride_length (k : ℕ) (hk : 0 < k) (x : List α) (n : ℕ) :
    (stride k x).length = n ↔ x.length ≤ n * k ∧ ∀ m < n, m * k < x.length := by
  have key : ∀ i, i < (stride k x).length ↔ i * k < x.length := by
    intro i
    have h := stride_get k hk x i
    constructor <;> intro hi <;> by_contra hc
    · rw [List.getElem?_eq_none (l := x) (by omega)] at h
      rw [List.getElem?_eq_none_iff] at h
      omega
    · rw [List.getElem?_eq_none (l := stride k x) (by omega)] at h
      have := List.getElem?_eq_none_iff.1 h.symm
      omega
  constructor
  · rintro rfl
    refine ⟨?_, fun m hm => (key m).1 hm⟩
    by_contra hc
    have := (key (stride k x).length).2 (by omega)
    omega
  · rintro ⟨h1, h2⟩
    apply le_antisymm
    · by_contra hc
      have := (key n).1 (by omega)
      omega
    · by_contra hc
      have := (key (stride k x).length).2 (h2 _ (by omega))
      omega

section Filter

variable {V : Type} [AddCommGroup V] [Module ℝ V]

theorem filterFrom_length (b a : List ℝ) (x xs ys : List V) : (filterFrom b a xs ys x).length = ys.length + x.length := by
  induction x generalizing xs ys with
  | nil => simp [filterFrom]
  | cons r x ih =>
    rw [filterFrom, ih]
    simp only [List.length_cons]
    omega

theorem scipyFilter_length (b a : List ℝ) (x : List V) : (scipyFilter b a x).length = x.length := by
  simp [scipyFilter, filterFrom_length]

end Filter

/-! ## C49 -/

section C49

variable {V : Type} [AddCommGroup V] [Module ℝ V]

theorem gcd_parts (S B : ℕ) (hS : 0 < S) (hB : 0 < B) :
    ((S : ℤ) / (Int.gcd S B : ℤ)) = ((S / Nat.gcd S B : ℕ) : ℤ) ∧ ((B : ℤ) / (Int.gcd S B : ℤ)) = ((B / Nat.gcd S B : ℕ) : ℤ) ∧
    0 < S / Nat.gcd S B ∧ 0 < B / Nat.gcd S B ∧ (S / Nat.gcd S B) * B = (B / Nat.gcd S B) * S := by
  have hg : Int.gcd S B = Nat.gcd S B := rfl
  have h0 : 0 < Nat.gcd S B := Nat.gcd_pos_of_pos_left _ hS
  rw [hg]
  refine ⟨by push_cast; rfl, by push_cast; rfl, Nat.div_pos (Nat.gcd_le_left _ hS) h0, Nat.div_pos (Nat.gcd_le_right _ hB) h0, ?_⟩
  obtain ⟨s, hs⟩ := Nat.gcd_dvd_left S B
  obtain ⟨b, hb⟩ := Nat.gcd_dvd_right S B
  have e1 : S / Nat.gcd S B = s := Nat.div_eq_of_eq_mul_right h0 hs
  have e2 : B / Nat.gcd S B = b := Nat.div_eq_of_eq_mul_right h0 hb
  rw [e1, e2]
  calc s * B = s * (Nat.gcd S B * b) := congrArg _ hb
    _ = b * (Nat.gcd S B * s) := by ring
    _ = b * S := congrArg _ hs.symm

theorem ceil_bound (n S B rs rb N : ℕ) (hrs : 0 < rs) (hrb : 0 < rb) (hB : 0 < B) (h : rs * B = rb * S) (hS : 0 < S) :
    (n * rs ≤ N * rb ∧ ∀ m < N, m * rb < n * rs) ↔ (n * S ≤ N * B ∧ ∀ m < N, m * B < n * S) := by
  have e1 : ∀ N, n * rs ≤ N * rb ↔ n * S ≤ N * B := by
    intro N
    constructor <;> intro hh
    · have : n * (rs * B) ≤ N * (rb * B) := by nlinarith
      rw [h] at this
      have : rb * (n * S) ≤ rb * (N * B) := by nlinarith
      exact Nat.le_of_mul_le_mul_left this hrb
    · have : rb * (n * S) ≤ rb * (N * B) := Nat.mul_le_mul_left _ hh
      have : n * (rb * S) ≤ N * rb * B := by nlinarith
      rw [← h] at this
      have : B * (n * rs) ≤ B * (N * rb) := by nlinarith
      exact Nat.le_of_mul_le_mul_left this hB
  have e2 : ∀ m, m * rb < n * rs ↔ m * B < n * S := fun m => by
    have := e1 m
    omega
  rw [e1]
  simp only [e2]

theorem div_parts (k S B rs rb : ℕ) (hS : 0 < S) (hrs : 0 < rs) (h : rs * B = rb * S) : k * rb / rs = k * B / S := by
  rw [← Nat.mul_div_mul_right _ _ hS, ← Nat.mul_div_mul_left (k * B) S hrs]
  congr 1
  calc k * rb * S = k * (rb * S) := by ring
    _ = k * (rs * B) := by rw [h]
    _ = rs * (k * B) := by ring

/-- The array of bits meant by the argument. -/
def BitsArg.rows (rng : ℕ → List V) : BitsArg V → Option (List V)
  | .number n => some (rng n)
  | .array x => some x
  | .sequence _ => none

/-- C49: for integer rates, a stream without cutoff has `⌈n · samplerate / bitrate⌉` samples, and sample `k` is the
bit which is valid at time `k / samplerate`. -/
theorem C49_samples (rng : ℕ → List V) (butter : ℚ → List ℝ × List ℝ) (arg : BitsArg V) (bits : List V)
    (hb : arg.rows rng = some bits) (B S : ℕ) (hB : 0 < B) (hS : 0 < S) :
    ∃ stream, bitStream rng butter arg B S none = .ok stream ∧
      stream.length = ⌈(bits.length : ℚ) * S / B⌉₊ ∧
      ∀ k, k < stream.length → stream[k]? = bits[⌊(k : ℚ) / S * B⌋₊]? := by
  obtain ⟨h1, h2, h3, h4, h5⟩ := gcd_parts S B hS hB
  refine ⟨stride (B / Nat.gcd S B) (repeatEach (S / Nat.gcd S B) bits), ?_, ?_, ?_⟩
  · unfold bitStream refined
    rw [if_neg (by rintro ⟨h, -⟩; cases h)]
    simp only [toRate_nat, h1, h2]
    rw [if_neg (by push Not; exact_mod_cast h3)]
    have : ¬ (((B / Nat.gcd S B : ℕ) : ℤ) * 1 ≤ 0) := by rw [mul_one]; push Not; exact_mod_cast h4
    have e : (((B / Nat.gcd S B : ℕ) : ℤ) * 1).toNat = B / Nat.gcd S B := by rw [mul_one]; exact Int.toNat_natCast _
    rw [e]
    cases arg with
    | number n => cases hb; simp only [pure_bind, if_neg this]; rfl
    | array x => cases hb; simp only [pure_bind, if_neg this]; rfl
    | sequence x => cases hb
  · rw [stride_length _ h4, repeatEach_length, ceil_bound bits.length S B _ _ _ h3 h4 hB h5 hS]
    have hB' : (0 : ℚ) < B := by exact_mod_cast hB
    constructor
    · have := Nat.le_ceil ((bits.length : ℚ) * S / B)
      rw [div_le_iff₀ hB'] at this
      exact_mod_cast this
    · intro m hm
      rw [Nat.lt_ceil, lt_div_iff₀ hB'] at hm
      exact_mod_cast hm
  · intro k _
    rw [stride_get _ h4, repeatEach_get _ h3]
    congr 1
    have hS' : (0 : ℚ) < S := by exact_mod_cast hS
    have e : (k : ℚ) / S * B = ((k * B : ℕ) : ℚ) / (S : ℕ) := by push_cast; ring
    rw [e, Nat.floor_div_eq_div]
    exact div_parts k S B _ _ hS h3 h5

/-- Three bits at 2 bits and 3 samples per second: five samples. -/
example (butter) : ∃ stream, bitStream (fun _ => []) butter (.array [(1 : ℝ), 0, 1]) (2 : ℕ) (3 : ℕ) none = .ok stream ∧
    stream.length = 5 ∧ stream[1]? = some (1 : ℝ) ∧ stream[2]? = some 0 := by
  obtain ⟨s, h1, h2, h3⟩ := C49_samples (fun _ => []) butter (.array [1, 0, 1]) [(1 : ℝ), 0, 1] rfl 2 3 (by norm_num) (by norm_num)
  have hl : s.length = 5 := by
    rw [h2]
    have : ((([1, 0, 1] : List ℝ).length : ℚ) * (3 : ℕ) / (2 : ℕ)) = 9 / 2 := by norm_num
    rw [this, Nat.ceil_eq_iff (by norm_num)]
    norm_num
  refine ⟨s, h1, hl, ?_, ?_⟩
  · rw [h3 1 (by omega)]
    have : ⌊((1 : ℕ) : ℚ) / (3 : ℕ) * (2 : ℕ)⌋₊ = 0 := by rw [Nat.floor_eq_iff (by positivity)]; norm_num
    rw [this]; rfl
  · rw [h3 2 (by omega)]
    have : ⌊((2 : ℕ) : ℚ) / (3 : ℕ) * (2 : ℕ)⌋₊ = 1 := by rw [Nat.floor_eq_iff (by positivity)]; norm_num
    rw [this]; rfl

/-- The refined sampling is a multiple of the sampling. -/
theorem refined_nat (S : ℕ) (hS : 0 < S) (f : ℚ) (hf : 0 < f) :
    ∃ r : ℕ, 0 < r ∧ refined (S : ℚ) (some f) = (((r * S : ℕ) : ℚ), (r : ℤ)) ∧ 4 * f ≤ r * S + 1 / 4 := by
  have hS' : (0 : ℚ) < S := by exact_mod_cast hS
  have hSz : (0 : ℤ) < S := by exact_mod_cast hS
  have ht : toRate (8 * f) = ⌊8 * f + 1 / 2⌋ := by
    unfold toRate pyTrunc
    rw [if_pos (by linarith)]
  obtain ⟨q, hq⟩ : ∃ q : ℕ, toRate (8 * f) / (S : ℤ) = q := by
    apply Int.eq_ofNat_of_zero_le
    apply Int.ediv_nonneg _ hSz.le
    rw [ht]
    exact Int.floor_nonneg.2 (by linarith)
  have hbound : 8 * f < (q + 1) * S + 1 / 2 := by
    have h1 : toRate (8 * f) < (q + 1) * (S : ℤ) := by
      rw [← hq]
      exact Int.lt_ediv_add_one_mul_self _ hSz
    rw [ht] at h1
    have h2 : (⌊8 * f + 1 / 2⌋ : ℚ) + 1 ≤ (q + 1) * S := by exact_mod_cast h1
    have := Int.lt_floor_add_one (8 * f + 1 / 2)
    linarith
  refine ⟨max q 1, by simp, ?_, ?_⟩
  · unfold refined
    simp only [toRate_nat, Int.fdiv_eq_ediv_of_nonneg _ hSz.le, hq]
    have e : max (((q : ℤ) : ℚ) * (S : ℚ)) S = ((max q 1 * S : ℕ) : ℚ) := by
      rcases Nat.eq_zero_or_pos q with rfl | hq'
      · simp
      · have : (1 : ℚ) ≤ q := by exact_mod_cast hq'
        rw [Nat.max_eq_left hq']
        push_cast
        rw [max_eq_left (by nlinarith)]
    rw [e, toRate_nat]
    congr 1
    push_cast
    rw [Int.mul_ediv_cancel _ hSz.ne']
  · rcases Nat.eq_zero_or_pos q with rfl | hq'
    · norm_num at hbound ⊢
      linarith
    · have : (1 : ℚ) ≤ q := by exact_mod_cast hq'
      rw [Nat.max_eq_left hq']
      nlinarith

/-- C49, C71: with a cutoff, the number of samples is the same; the filter is always accepted by `butter`.  Sample `k` is the
value at time `k / samplerate` of the bits sampled at a rate `R` (a multiple of both rates) and filtered at that rate. -/
theorem C49_cutoff (rng : ℕ → List V) (butter : ℚ → List ℝ × List ℝ) (arg : BitsArg V) (bits : List V)
    (hb : arg.rows rng = some bits) (B S : ℕ) (hB : 0 < B) (hS : 0 < S) (f : ℚ) (hf : 0 < f) :
    ∃ stream, bitStream rng butter arg B S (some f) = .ok stream ∧ stream.length = ⌈(bits.length : ℚ) * S / B⌉₊ ∧
      ∃ (R : ℕ) (fine : List V), B ∣ R ∧ S ∣ R ∧ 0 < R ∧ 4 * f ≤ R + 1 / 4 ∧ fine.length = bits.length * (R / B) ∧
        (∀ j : ℕ, fine[j]? = bits[⌊(j : ℚ) / R * B⌋₊]?) ∧
        ∀ k : ℕ, stream[k]? = (scipyFilter (butter (2 * f / R)).1 (butter (2 * f / R)).2 fine)[k * (R / S)]? := by
  obtain ⟨r, hr, hre, hfr⟩ := refined_nat S hS f hf
  have hrS : 0 < r * S := Nat.mul_pos hr hS
  obtain ⟨h1, h2, h3, h4, h5⟩ := gcd_parts (r * S) B hrS hB
  set rs := r * S / Nat.gcd (r * S) B
  set rb := B / Nat.gcd (r * S) B
  have hrSq : (1 : ℚ) ≤ r * S := by exact_mod_cast hrS
  have hw : ¬ (f / (1 / 2 * ((r * S : ℕ) : ℚ) * ((rb : ℤ) : ℚ)) ≤ 0 ∨ 1 ≤ f / (1 / 2 * ((r * S : ℕ) : ℚ) * ((rb : ℤ) : ℚ))) := by
    have hb1 : (1 : ℚ) ≤ rb := by exact_mod_cast h4
    push_cast
    have hp : (0 : ℚ) < 1 / 2 * (r * S) * rb := by positivity
    push Not
    refine ⟨div_pos hf hp, ?_⟩
    rw [div_lt_one hp]
    nlinarith
  have hwe : f / (1 / 2 * ((r * S : ℕ) : ℚ) * ((rb : ℤ) : ℚ)) = 2 * f / ((rs * B : ℕ) : ℚ) := by
    rw [h5]
    have hb1 : (0 : ℚ) < rb := by exact_mod_cast h4
    have hr1 : (0 : ℚ) < r := by exact_mod_cast hr
    have hS1 : (0 : ℚ) < S := by exact_mod_cast hS
    push_cast
    field_simp
  rw [hwe] at hw
  refine ⟨stride (rb * r) (scipyFilter (butter (2 * f / ((rs * B : ℕ) : ℚ))).1
    (butter (2 * f / ((rs * B : ℕ) : ℚ))).2 (repeatEach rs bits)), ?_, ?_, ?_⟩
  · unfold bitStream
    rw [if_neg (by rintro ⟨-, h⟩; rw [toRate_nat] at h; exact hS.ne' (by exact_mod_cast h))]
    simp only [hre]
    simp only [toRate_nat, h1, h2]
    rw [if_neg (by push Not; exact_mod_cast h3)]
    simp only [hwe, if_neg hw]
    have : ¬ ((rb : ℤ) * (r : ℤ) ≤ 0) := by push Not; exact_mod_cast Nat.mul_pos h4 hr
    have e : ((rb : ℤ) * (r : ℤ)).toNat = rb * r := by exact_mod_cast Int.toNat_natCast (rb * r)
    rw [e]
    cases arg with
    | number n => cases hb; simp only [pure_bind, if_neg this]; rfl
    | array x => cases hb; simp only [pure_bind, if_neg this]; rfl
    | sequence x => cases hb
  · rw [stride_length _ (Nat.mul_pos h4 hr), scipyFilter_length, repeatEach_length,
      ceil_bound bits.length S B rs (rb * r) _ h3 (Nat.mul_pos h4 hr) hB (by rw [h5]; ring) hS]
    have hB' : (0 : ℚ) < B := by exact_mod_cast hB
    constructor
    · have := Nat.le_ceil ((bits.length : ℚ) * S / B)
      rw [div_le_iff₀ hB'] at this
      exact_mod_cast this
    · intro m hm
      rw [Nat.lt_ceil, lt_div_iff₀ hB'] at hm
      exact_mod_cast hm
  · refine ⟨rs * B, repeatEach rs bits, Nat.dvd_mul_left _ _, ?_, Nat.mul_pos h3 hB, ?_, ?_, ?_, ?_⟩
    · rw [h5, ← Nat.mul_assoc]
      exact Nat.dvd_mul_left _ _
    · rw [h5]
      have hb1 : (1 : ℚ) ≤ rb := by exact_mod_cast h4
      push_cast
      nlinarith
    · rw [repeatEach_length, Nat.mul_div_cancel _ hB]
    · intro j
      rw [repeatEach_get _ h3]
      congr 1
      have hB' : (B : ℚ) ≠ 0 := by exact_mod_cast hB.ne'
      have hrs' : (rs : ℚ) ≠ 0 := by exact_mod_cast h3.ne'
      have e : (j : ℚ) / ((rs * B : ℕ) : ℚ) * B = (j : ℚ) / (rs : ℕ) := by push_cast; field_simp
      rw [e, Nat.floor_div_eq_div]
    · intro k
      rw [stride_get _ (Nat.mul_pos h4 hr)]
      congr 2
      rw [h5, ← Nat.mul_assoc, Nat.mul_div_cancel _ hS]

/-- A stream with 40 GHz bits, 160 GHz samples and a cutoff at 30 GHz. -/
example (butter) : ∃ stream, bitStream (fun _ => []) butter (.array [(1 : ℝ), 0, 1]) (40000000000 : ℕ) (160000000000 : ℕ) (some 30000000000) =
    .ok stream ∧ stream.length = 12 := by
  obtain ⟨s, h1, h2, -⟩ := C49_cutoff (fun _ => []) butter (.array [1, 0, 1]) [(1 : ℝ), 0, 1] rfl 40000000000 160000000000
    (by norm_num) (by norm_num) 30000000000 (by norm_num)
  refine ⟨s, h1, ?_⟩
  rw [h2]
  have : ((([1, 0, 1] : List ℝ).length : ℚ) * (160000000000 : ℕ) / (40000000000 : ℕ)) = (12 : ℕ) := by norm_num
  rw [this, Nat.ceil_natCast]

/-- C70 is violated: bits given as a list or tuple are rejected, for all rates. -/
theorem C70_violation (rng : ℕ → List V) (butter : ℚ → List ℝ × List ℝ) (x : List V) (bitrate samplerate : ℚ)
    (cutoff : Option ℚ) : ∃ e, bitStream rng butter (.sequence x) bitrate samplerate cutoff = .error e := by
  unfold bitStream
  by_cases h0 : cutoff.isSome ∧ toRate samplerate = 0
  · exact ⟨.zeroDivision, by rw [if_pos h0]; rfl⟩
  rw [if_neg h0]
  by_cases h : toRate (refined samplerate cutoff).1 / ((Int.gcd (toRate (refined samplerate cutoff).1) (toRate bitrate) : ℕ) : ℤ) ≤ 0
  · exact ⟨.valueError, by simp only [if_pos h]; rfl⟩
  · exact ⟨.attributeError, by simp only [if_neg h]; rfl⟩

example (butter) : bitStream (fun _ => []) butter (.sequence [(1 : ℝ), 0, 1]) (2 : ℕ) (3 : ℕ) none = .error .attributeError := by
  unfold bitStream refined
  rw [if_neg (by rintro ⟨h, -⟩; cases h)]
  simp only [toRate_nat]
  rw [if_neg (by decide)]
  rfl

/-- C70 (what holds): the same bits given as an array are accepted. -/
theorem C70_array_partial (rng : ℕ → List V) (butter : ℚ → List ℝ × List ℝ) (x : List V) (B S : ℕ) (hB : 0 < B) (hS : 0 < S)
    (cutoff : Option ℚ) (hf : ∀ f ∈ cutoff, 0 < f) : ∃ s, bitStream rng butter (.array x) B S cutoff = .ok s := by
  cases cutoff with
  | none =>
    obtain ⟨s, h, -⟩ := C49_samples rng butter (.array x) x rfl B S hB hS
    exact ⟨s, h⟩
  | some f =>
    obtain ⟨s, h, -⟩ := C49_cutoff rng butter (.array x) x rfl B S hB hS f (hf f rfl)
    exact ⟨s, h⟩

example (butter) : ∃ s, bitStream (fun _ => []) butter (.array [(1 : ℝ), 0, 1]) (2 : ℕ) (3 : ℕ) none = .ok s :=
  C70_array_partial _ _ _ _ _ (by norm_num) (by norm_num) _ (by simp)

end C49

/-! ## C72 -/

/-- C72: a rate given as keyword argument is used; else the one of the current environment, if it has one; else the one given
to the constructor. -/
theorem C72_precedence (env : Option (Option ℚ)) (x r own : ℚ) :
    resolveRate (some x) env own = x ∧ resolveRate none (some (some r)) own = r ∧
    resolveRate none (some none) own = own ∧ resolveRate none none own = own := by
  refine ⟨?_, rfl, rfl, rfl⟩
  rcases env with - | - | - <;> rfl

example : resolveRate (some 3) (some (some 5)) 7 = 3 := (C72_precedence (some (some 5)) 3 5 7).1

end PT
