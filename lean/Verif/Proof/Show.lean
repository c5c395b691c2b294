import Verif.Model.Show
import Verif.Spec.Show
import Verif.Proof.Rounded
import Verif.Proof.Str

/-! # Lemmas about the printed forms of an environment -/

namespace PT
open Spec

theorem digit_isDigit {d : ℕ} (h : d < 10) : (digitChar d).isDigit = true ∧ (digitChar d).toNat - 48 = d := by
  interval_cases d <;> decide

theorem natStr_digits (n : ℕ) : (natStr n).all Char.isDigit = true := by
  rw [List.all_eq_true]
  intro c hc
  obtain ⟨d, hd, rfl⟩ := natStr_mem c hc
  exact (digit_isDigit hd).1

theorem natStr_value (n : ℕ) : decimalValue (natStr n) = n := by
  unfold decimalValue
  induction n using Nat.strong_induction_on with
  | _ n ih =>
    rw [natStr]
    split
    · rename_i h
      simp [(digit_isDigit h).2]
    · rename_i h
      have h10 : n % 10 < 10 := by omega
      rw [List.foldl_append, ih (n / 10) (by omega)]
      simp only [List.foldl_cons, List.foldl_nil, (digit_isDigit h10).2]
      omega

theorem exponentStr_spec (e : ℤ) : ∃ sign es, exponentStr e = sign :: es ∧ es.all Char.isDigit = true ∧ 2 ≤ es.length ∧
    decimalValue es = e.natAbs ∧ (0 ≤ e → sign = '+') ∧ (e < 0 → sign = '-') := by
  have two : ∀ n, ¬n < 10 → 2 ≤ (natStr n).length := by
    intro n hn
    rw [natStr, if_neg hn, List.length_append]
    have := List.length_pos_iff.mpr (natStr_ne_nil (n / 10))
    simp only [List.length_cons, List.length_nil]
    omega
  refine ⟨_, _, rfl, ?_, ?_, ?_, ?_, ?_⟩
  · split
    · rw [List.all_cons, natStr_digits]; rfl
    · exact natStr_digits _
  · split
    · have := List.length_pos_iff.mpr (natStr_ne_nil e.natAbs)
      simp only [List.length_cons]; omega
    · exact two _ ‹_›
  · split
    · have := natStr_value e.natAbs
      unfold decimalValue at this ⊢
      rw [List.foldl_cons]
      simpa using this
    · exact natStr_value _
  · intro h; rw [if_neg (by omega)]
  · intro h; rw [if_pos h]

/-- The value of four digits and an exponent. -/
theorem readPositive_digits {m : ℕ} (hm : m < 10000) (e : ℤ) :
    readPositive (natStr (m / 1000) ++ '.' :: threeDigits m ++ 'e' :: exponentStr e) = some ((m : ℚ) * 10 ^ (e - 3)) := by
  obtain ⟨sign, es, he, hd, hl, hv, hp, hn⟩ := exponentStr_spec e
  have h1 : natStr (m / 1000) = [digitChar (m / 1000)] := by rw [natStr, if_pos (by omega)]
  have key : (m : ℚ) / 1000 * 10 ^ e = m * 10 ^ (e - 3) := by
    rw [zpow_sub₀ (by norm_num)]; norm_num; ring
  have val : decimalValue [digitChar (m / 1000), digitChar (m / 100 % 10), digitChar (m / 10 % 10), digitChar (m % 10)] = m := by
    simp only [decimalValue, List.foldl_cons, List.foldl_nil]
    rw [(digit_isDigit (d := m / 1000) (by omega)).2, (digit_isDigit (d := m / 100 % 10) (by omega)).2,
      (digit_isDigit (d := m / 10 % 10) (by omega)).2, (digit_isDigit (d := m % 10) (by omega)).2]
    omega
  have all : (digitChar (m / 1000) :: digitChar (m / 100 % 10) :: digitChar (m / 10 % 10) :: digitChar (m % 10) :: es).all
      Char.isDigit = true := by
    simp only [List.all_cons, hd, (digit_isDigit (d := m / 1000) (by omega)).1, (digit_isDigit (d := m / 100 % 10) (by omega)).1,
      (digit_isDigit (d := m / 10 % 10) (by omega)).1, (digit_isDigit (d := m % 10) (by omega)).1, Bool.and_self]
  rw [h1, he, threeDigits]
  simp only [List.cons_append, List.nil_append, readPositive]
  rcases lt_or_ge e 0 with h | h
  · rw [hn h, if_neg (by rintro ⟨_, _, h'⟩; exact absurd h' (by decide)), if_pos ⟨all, hl, rfl⟩, val, hv, ← key]
    congr 1
    have : e = -(e.natAbs : ℤ) := by omega
    conv_rhs => rw [this, zpow_neg, zpow_natCast]
    rw [div_eq_mul_inv _ ((10 : ℚ) ^ e.natAbs)]
  · rw [hp h, if_pos ⟨all, hl, rfl⟩, val, hv, ← key]
    congr 2
    have : e = (e.natAbs : ℤ) := by omega
    conv_rhs => rw [this, zpow_natCast]

theorem fourDigits_spec {x : ℚ} (hx : 0 < x) : (fourDigits x).1 < 10000 ∧
    |((fourDigits x).1 : ℚ) * 10 ^ ((fourDigits x).2 - 3) - x| ≤ x / 2000 ∧
    (Short x → ((fourDigits x).1 : ℚ) * 10 ^ ((fourDigits x).2 - 3) = x) := by
  set e := Int.log 10 x with he
  have lo : (10 : ℚ) ^ e ≤ x := by have := Int.zpow_log_le_self (b := 10) (by norm_num) hx; exact_mod_cast this
  have hi : x < (10 : ℚ) ^ (e + 1) := by have := Int.lt_zpow_succ_log_self (b := 10) (by norm_num) x; exact_mod_cast this
  set u : ℚ := 10 ^ (e - 3) with hu
  have upos : 0 < u := by positivity
  have e3 : (10 : ℚ) ^ e = 1000 * u := by rw [hu, zpow_sub₀ (by norm_num)]; norm_num; ring
  have e4 : (10 : ℚ) ^ (e + 1) = 10000 * u := by rw [zpow_add₀ (by norm_num), e3]; norm_num; ring
  have qlo : 1000 ≤ x / u := by rw [le_div_iff₀ upos, ← e3]; exact lo
  have qhi : x / u < 10000 := by rw [div_lt_iff₀ upos, ← e4]; exact hi
  have near := roundEven_near (x / u)
  set r := roundEven (x / u) with hr
  rw [abs_le] at near
  have r0 : 0 ≤ r := by
    have : (-1 : ℚ) < r := by linarith
    have : (-1 : ℤ) < r := by exact_mod_cast this
    omega
  have r4 : r ≤ 10000 := by
    have : (r : ℚ) < 10001 := by linarith
    have : r < 10001 := by exact_mod_cast this
    omega
  have rn : ((r.toNat : ℕ) : ℚ) = (r : ℚ) := by
    have : ((r.toNat : ℕ) : ℤ) = r := Int.toNat_of_nonneg r0
    exact_mod_cast this
  have value : ((fourDigits x).1 : ℚ) * 10 ^ ((fourDigits x).2 - 3) = r * u := by
    unfold fourDigits
    simp only [← he, ← hu, ← hr]
    split
    · rename_i h
      rw [← rn, h]
      push_cast
      rw [show e + 1 - 3 = (e - 3) + 1 by ring, zpow_add₀ (by norm_num), ← hu]
      norm_num
      ring
    · rw [rn]
  refine ⟨?_, ?_, ?_⟩
  · unfold fourDigits
    simp only [← he, ← hu, ← hr]
    split
    · norm_num
    · rename_i h
      show r.toNat < 10000
      omega
  · rw [value]
    have xu : x = x / u * u := by field_simp
    have : |(r : ℚ) * u - x| = |(r : ℚ) - x / u| * u := by
      conv_lhs => rw [xu, ← sub_mul, abs_mul, abs_of_pos upos]
    rw [this]
    have h2 : |(r : ℚ) - x / u| ≤ 1 / 2 := abs_le.mpr near
    calc |(r : ℚ) - x / u| * u ≤ 1 / 2 * u := by gcongr
      _ ≤ x / 2000 := by linarith [lo, e3]
  · rintro ⟨m, k, hm, hk⟩
    rw [value]
    have hke : e - 3 ≤ k := by
      by_contra hlt
      push Not at hlt
      have h1 : (10 : ℚ) ^ e ≤ m * 10 ^ k := hk ▸ lo
      have h2 : (10 : ℚ) ^ (k + 4) ≤ 10 ^ e := zpow_le_zpow_right₀ (by norm_num) (by omega)
      rw [zpow_add₀ (by norm_num)] at h2
      have kp : (0 : ℚ) < 10 ^ k := by positivity
      have h3 : (10 : ℚ) ^ (4 : ℤ) ≤ m := by
        by_contra hc
        push Not at hc
        nlinarith [mul_lt_mul_of_pos_left hc kp]
      have h4 : (m : ℚ) < 10 ^ 4 := by
        have := (abs_lt.mp hm).2
        exact_mod_cast this
      norm_num at h3 h4
      linarith
    have hint : x / u = ((m * 10 ^ (k - (e - 3)).toNat : ℤ) : ℚ) := by
      push_cast
      rw [← zpow_natCast, Int.toNat_of_nonneg (by omega), zpow_sub₀ (by norm_num), ← hu, hk]
      field_simp
    rw [hr, hint, roundEven_int, ← hint]
    field_simp

theorem short_abs {x : ℚ} (h : Short x) : Short |x| := by
  obtain ⟨m, e, hm, rfl⟩ := h
  refine ⟨|m|, e, by rwa [abs_abs], ?_⟩
  rw [abs_mul, abs_of_pos (show (0 : ℚ) < 10 ^ e by positivity), Int.cast_abs]

theorem sciStr_spec (x : ℚ) : NumberText x (sciStr x) := by
  rcases lt_trichotomy x 0 with h | h | h
  · obtain ⟨h1, h2, h3⟩ := fourDigits_spec (abs_pos.mpr h.ne)
    refine ⟨-(((fourDigits |x|).1 : ℚ) * 10 ^ ((fourDigits |x|).2 - 3)), ?_, ?_, ?_⟩
    · rw [sciStr, if_neg h.ne]
      simp only [if_pos h, List.cons_append, List.nil_append, readSci]
      rw [readPositive_digits h1, Option.map_some]
    · rw [abs_of_neg h] at h2 ⊢
      rw [← abs_neg]
      convert h2 using 2
      ring
    · intro hs
      rw [h3 (short_abs hs), abs_of_neg h, neg_neg]
  · subst h
    exact ⟨0, by decide +kernel, by simp, fun _ => rfl⟩
  · rw [show NumberText x = NumberText |x| by rw [abs_of_pos h]]
    obtain ⟨h1, h2, h3⟩ := fourDigits_spec (abs_pos.mpr h.ne')
    refine ⟨((fourDigits |x|).1 : ℚ) * 10 ^ ((fourDigits |x|).2 - 3), ?_, by rwa [abs_abs], h3⟩
    rw [sciStr, if_neg h.ne']
    simp only [if_neg h.le.not_gt, List.nil_append]
    rw [← readPositive_digits h1]
    rw [natStr, if_pos (by omega)]
    simp only [List.cons_append, List.nil_append]
    have : digitChar ((fourDigits |x|).1 / 1000) ≠ '-' := (digitChar_plain (by omega)).2.2.1
    unfold readSci
    split
    · rename_i heq; exact absurd (List.cons.inj heq).1 this
    · rfl

theorem readPositive_plain {s : List Char} {y : ℚ} (h : readPositive s = some y) :
    ∀ c ∈ s, c.isDigit = true ∨ c ∈ ['.', 'e', '+', '-'] := by
  unfold readPositive at h
  split at h
  · rename_i a b c d sign es
    have key : ∀ sg ∈ ['+', '-'], (a :: b :: c :: d :: es).all Char.isDigit = true → ∀ x ∈ a :: '.' :: b :: c :: d :: 'e' :: sg :: es,
        x.isDigit = true ∨ x ∈ ['.', 'e', '+', '-'] := by
      intro sg hsg hall x hx
      rw [List.all_eq_true] at hall
      simp only [List.mem_cons] at hx
      rcases hx with rfl | rfl | rfl | rfl | rfl | rfl | rfl | hx
      · exact .inl (hall _ (by simp))
      · exact .inr (by simp)
      · exact .inl (hall _ (by simp))
      · exact .inl (hall _ (by simp))
      · exact .inl (hall _ (by simp))
      · exact .inr (by simp)
      · refine .inr ?_
        simp only [List.mem_cons, List.not_mem_nil, or_false] at hsg
        rcases hsg with rfl | rfl <;> simp
      · exact .inl (hall _ (by simp [hx]))
    split at h
    · rename_i hc
      obtain ⟨h1, -, rfl⟩ := hc
      exact key _ (by simp) h1
    · split at h
      · rename_i hc
        obtain ⟨h1, -, rfl⟩ := hc
        exact key _ (by simp) h1
      · cases h
  · cases h

theorem readSci_plain {s : List Char} {y : ℚ} (h : readSci s = some y) :
    s ≠ [] ∧ ∀ c ∈ s, c.isDigit = true ∨ c ∈ ['.', 'e', '+', '-'] := by
  unfold readSci at h
  split at h
  · rw [Option.map_eq_some_iff] at h
    obtain ⟨a, ha, -⟩ := h
    refine ⟨by simp, fun c hc => ?_⟩
    rcases List.mem_cons.mp hc with rfl | hc
    · exact .inr (by simp)
    · exact readPositive_plain ha c hc
  · refine ⟨?_, readPositive_plain h⟩
    rintro rfl
    cases h

theorem numberText_plain {x : ℚ} {s : List Char} (h : NumberText x s) : s ≠ [] ∧ '\n' ∉ s ∧ ',' ∉ s ∧ '<' ∉ s := by
  obtain ⟨y, hy, -⟩ := h
  obtain ⟨h1, h2⟩ := readSci_plain hy
  exact ⟨h1, fun hc => absurd (h2 _ hc) (by decide), fun hc => absurd (h2 _ hc) (by decide), fun hc => absurd (h2 _ hc) (by decide)⟩

theorem arrRepr_spec (l : List ℚ) : ArrayText l (arrRepr l) := by
  refine ⟨fun h => ⟨l.map sciStr, ?_, ?_⟩, ?_⟩
  · rw [List.forall₂_map_right_iff]
    exact List.forall₂_same.mpr fun x _ => sciStr_spec x
  · rw [arrRepr, if_neg (by omega), joinComma]
  · rintro a b m z rfl h
    refine ⟨sciStr a, sciStr b, sciStr z, sciStr_spec _, sciStr_spec _, sciStr_spec _, ?_⟩
    rw [arrRepr, if_pos h]
    have : lastD (a :: b :: (m ++ [z])) = z := by
      rw [lastD, show a :: b :: (m ++ [z]) = (a :: b :: m) ++ [z] by simp, List.getLastD_concat]
    rw [this]
    rfl

theorem intercalate_two (a b : Str) (l : List Str) :
    ", ".toList.intercalate (a :: b :: l) = a ++ ',' :: ' ' :: ", ".toList.intercalate (b :: l) := by
  simp [List.intercalate, List.intersperse]

theorem intercalate_noNewline {ts : List Str} (h : ∀ t ∈ ts, '\n' ∉ t) : '\n' ∉ ", ".toList.intercalate ts := by
  induction ts with
  | nil => simp [List.intercalate]
  | cons a l ih =>
    cases l with
    | nil => simpa [List.intercalate] using h
    | cons b l =>
      rw [intercalate_two]
      simp only [List.mem_append, List.mem_cons, not_or]
      exact ⟨h a (by simp), by decide, by decide, ih fun t ht => h t (List.mem_cons_of_mem _ ht)⟩

theorem arrRepr_noNewline (l : List ℚ) : '\n' ∉ arrRepr l := by
  unfold arrRepr joinComma
  split
  · simp only [List.mem_append, not_or]
    exact ⟨⟨⟨⟨⟨⟨by decide, (numberText_plain (sciStr_spec _)).2.1⟩, by decide⟩, (numberText_plain (sciStr_spec _)).2.1⟩, by decide⟩,
      (numberText_plain (sciStr_spec _)).2.1⟩, by decide⟩
  · simp only [List.mem_append, not_or]
    refine ⟨⟨by decide, intercalate_noNewline ?_⟩, by decide⟩
    intro t ht
    obtain ⟨x, -, rfl⟩ := List.mem_map.mp ht
    exact (numberText_plain (sciStr_spec _)).2.1

theorem readUntil_plain {q c : Char} {s : List Char} (hc : c ≠ '\\') (hq : c ≠ q) (hs : s ≠ []) :
    readUntil q (c :: s) = (readUntil q s).map fun r => c :: r := by
  rw [readUntil.eq_def]
  split
  all_goals first
    | (rename_i heq; exact absurd (List.cons.inj heq).1 (by simpa using hc))
    | (rename_i heq; exact absurd (List.cons.inj heq).2 (by simpa using hs))
    | (rename_i heq; cases heq; rw [if_neg hq])
    | skip
  all_goals (rename_i heq; simp_all)

theorem readUntil_escape {q c : Char} {s : List Char} (hn : c ≠ 'n') (hr : c ≠ 'r') (ht : c ≠ 't') (hx : c ≠ 'x') :
    readUntil q ('\\' :: c :: s) = (readUntil q s).map fun r => c :: r := by
  rw [readUntil.eq_def]
  split <;> simp_all
  rename_i h h'
  exact absurd h'.2.symm (h _ _ h'.1.symm)

theorem hexValue_hexChar {n : ℕ} (h : n < 16) : hexValue (hexChar n) = n ∧ hexChar n ≠ '\n' := by
  interval_cases n <;> decide

theorem strRepr_read {q : Char} (hq : q = '\'' ∨ q = '"') (s : Str) :
    readUntil q (s.flatMap (reprChar q) ++ [q]) = some s := by
  induction s with
  | nil => rcases hq with rfl | rfl <;> rfl
  | cons c s ih =>
    have ne : s.flatMap (reprChar q) ++ [q] ≠ [] := by simp
    rw [List.flatMap_cons, List.append_assoc, reprChar]
    split_ifs with h1 h2 h3 h4 h5
    · simp only [List.cons_append, List.nil_append]
      simp only [Bool.or_eq_true, decide_eq_true_eq] at h1
      have h : c ≠ 'n' ∧ c ≠ 'r' ∧ c ≠ 't' ∧ c ≠ 'x' := by
        rcases h1 with rfl | rfl
        · rcases hq with rfl | rfl <;> decide
        · decide
      rw [readUntil_escape h.1 h.2.1 h.2.2.1 h.2.2.2, ih, Option.map_some]
    · simp only [List.cons_append, List.nil_append]
      rw [readUntil, ih, Option.map_some, h2]
    · simp only [List.cons_append, List.nil_append]
      rw [readUntil, ih, Option.map_some, h3]
    · simp only [List.cons_append, List.nil_append]
      rw [readUntil, ih, Option.map_some, h4]
    · simp only [List.cons_append, List.nil_append]
      simp only [Bool.or_eq_true, decide_eq_true_eq] at h5
      have lt : c.toNat < 128 := by omega
      rw [readUntil, ih, Option.map_some, (hexValue_hexChar (by omega)).1, (hexValue_hexChar (by omega)).1, Nat.div_add_mod,
        Char.ofNat_toNat]
    · simp only [List.cons_append, List.nil_append]
      simp only [Bool.or_eq_true, decide_eq_true_eq, not_or] at h1
      rw [readUntil_plain h1.2 h1.1 ne, ih, Option.map_some]

theorem reprQuote_spec (s : Str) : reprQuote s = '\'' ∨ reprQuote s = '"' := by
  unfold reprQuote; split
  · exact .inr rfl
  · exact .inl rfl

theorem reprQuote_choice (s : Str) :
    reprQuote s = '"' ∧ '\'' ∈ s ∧ '"' ∉ s ∨ reprQuote s = '\'' ∧ ('\'' ∉ s ∨ '"' ∈ s) := by
  by_cases h : '\'' ∈ s ∧ '"' ∉ s
  · exact .inl ⟨if_pos h, h⟩
  · refine .inr ⟨if_neg h, ?_⟩
    by_cases h1 : '\'' ∈ s
    · exact .inr (not_not.1 fun h2 => h ⟨h1, h2⟩)
    · exact .inl h1

theorem strRepr_noNewline (s : Str) : '\n' ∉ strRepr s := by
  have hq := reprQuote_spec s
  generalize hqq : reprQuote s = q at hq
  have q1 : '\n' ≠ q := by rcases hq with rfl | rfl <;> decide
  rw [strRepr, hqq]
  simp only [List.mem_append, List.mem_cons, List.mem_flatMap, List.not_mem_nil, or_false, not_or, not_exists, not_and]
  refine ⟨⟨q1, fun c _ => ?_⟩, q1⟩
  unfold reprChar
  split_ifs with h1 h2 h3 h4 h5
  · simp only [Bool.or_eq_true, decide_eq_true_eq] at h1
    simp only [List.mem_cons, List.not_mem_nil, or_false, not_or]
    refine ⟨by decide, ?_⟩
    rcases h1 with rfl | rfl
    · exact q1
    · decide
  · decide
  · decide
  · decide
  · simp only [Bool.or_eq_true, decide_eq_true_eq] at h5
    simp only [List.mem_cons, List.not_mem_nil, or_false, not_or]
    exact ⟨by decide, by decide, (hexValue_hexChar (by omega)).2.symm, (hexValue_hexChar (by omega)).2.symm⟩
  · simp only [List.mem_cons, List.not_mem_nil, or_false]
    exact fun h => h2 h.symm

theorem strRepr_spec (s : Str) : QuotedText s (strRepr s) :=
  ⟨reprQuote s, _, reprQuote_choice s, rfl, strRepr_read (reprQuote_spec s) s, strRepr_noNewline s⟩

theorem natStr_spec (n : ℕ) : CountText n (natStr n) := ⟨natStr_ne_nil n, natStr_digits n, natStr_value n⟩

theorem natStr_noNewline (n : ℕ) : '\n' ∉ natStr n := by
  intro h
  have := (List.all_eq_true.mp (natStr_digits n)) _ h
  revert this; decide

theorem repr_noNewline (v : AttrVal) : '\n' ∉ v.repr := by
  cases v with
  | text s => exact strRepr_noNewline s
  | num x => exact (numberText_plain (sciStr_spec x)).2.1
  | count n => exact natStr_noNewline n
  | flag b => cases b <;> decide
  | nothing => decide
  | array l => exact arrRepr_noNewline l

theorem opt_spec (o : Option ℚ) : OptText o (AttrVal.opt o).repr := by
  cases o with
  | none => rfl
  | some x => exact sciStr_spec x

/-- Whether an attribute of this name is printed. -/
def keyShown (k : Str) : Bool := k.head? != some '_' && !synonyms.contains k

theorem filter_keep {k : Str} {v : AttrVal} {l m : List (Str × AttrVal)} (h : keyShown k = true)
    (hl : l.filter (fun kv => keyShown kv.1) = m) : ((k, v) :: l).filter (fun kv => keyShown kv.1) = (k, v) :: m := by
  rw [List.filter_cons, if_pos h, hl]

theorem filter_drop {k : Str} {v : AttrVal} {l m : List (Str × AttrVal)} (h : keyShown k = false)
    (hl : l.filter (fun kv => keyShown kv.1) = m) : ((k, v) :: l).filter (fun kv => keyShown kv.1) = m := by
  rw [List.filter_cons, if_neg (by simp [h]), hl]

theorem shown_eq (e : Env) : e.shown =
    [("name".toList, .text e.name), ("t".toList, .array e.t), ("t0".toList, .num e.t0), ("t1".toList, .opt e.t1),
     ("num_t".toList, .count e.num_t), ("dt".toList, .opt e.dt), ("samplerate".toList, .opt e.samplerate),
     ("bitrate".toList, .opt e.bitrate), ("bitlength".toList, .opt e.bitlength), ("wl".toList, .array e.wl),
     ("wl0".toList, .num e.wl0), ("wl1".toList, .opt e.wl1), ("num_wl".toList, .count e.num_wl), ("dwl".toList, .opt e.dwl),
     ("f".toList, .array e.f), ("f0".toList, .num e.f0), ("f1".toList, .opt e.f1), ("num_f".toList, .count e.num_f),
     ("df".toList, .opt e.df), ("c".toList, .num e.c), ("freqdomain".toList, .flag e.freqdomain), ("grad".toList, .flag e.grad)] ++
    (openExtras e).map fun kv => (kv.1, .num kv.2) := by
  unfold Env.shown Env.attrs
  show List.filter (fun (kv : Str × AttrVal) => keyShown kv.1) _ = _
  rw [List.filter_append]
  refine congrArg₂ _ ?_ ?_
  · repeat' first
      | refine filter_keep (by decide +kernel) ?_
      | refine filter_drop (by decide +kernel) ?_
    rfl
  rw [List.filter_map]
  refine congrArg _ ?_
  unfold openExtras
  refine List.filter_congr fun kv _ => ?_
  have : synonyms.contains kv.1 = decide (kv.1 ∈ legacyNames) := by
    rw [Bool.eq_iff_iff, List.contains_iff_mem, decide_eq_true_eq]
    exact ⟨(by decide +kernel : ∀ s ∈ synonyms, s ∈ legacyNames) _, (by decide +kernel : ∀ s ∈ legacyNames, s ∈ synonyms) _⟩
  simp only [Function.comp, keyShown, this]
  by_cases h1 : kv.1.head? = some '_' <;> by_cases h2 : kv.1 ∈ legacyNames <;> simp [h1, h2]

theorem shown_rows (e : Env) : (e.shown.map fun kv => kv.1) = (rows e).map (fun r => r.1) ∧
    List.Forall₂ (fun r v => r.2 v) (rows e) (e.shown.map fun kv => kv.2.repr) := by
  rw [shown_eq]
  unfold rows
  constructor
  · simp
  · rw [List.map_append]
    refine List.rel_append (R := fun (r : Str × (Str → Prop)) v => r.2 v) ?_ ?_
    · simp only [List.map_cons, List.map_nil]
      repeat' apply List.Forall₂.cons
      all_goals first
        | exact strRepr_spec _
        | exact arrRepr_spec _
        | exact sciStr_spec _
        | exact opt_spec _
        | exact natStr_spec _
        | rfl
        | exact List.Forall₂.nil
    · rw [List.map_map, List.forall₂_map_right_iff, List.forall₂_map_left_iff]
      exact List.forall₂_same.mpr fun x _ => sciStr_spec _

theorem arrStr_spec (l : List ℚ) : ArrayCell l (arrStr l) := by
  refine ⟨?_, fun h h' => ⟨l.map sciStr, ?_, ?_⟩, ?_⟩
  · rintro a rfl
    exact sciStr_spec a
  · rw [List.forall₂_map_right_iff]
    exact List.forall₂_same.mpr fun x _ => sciStr_spec x
  · rw [arrStr, if_neg (by omega), if_pos (by omega)]
    rfl
  · rintro a b m z rfl h
    refine ⟨sciStr a, sciStr b, sciStr z, sciStr_spec _, sciStr_spec _, sciStr_spec _, ?_⟩
    rw [arrStr, if_pos h]
    have : lastD (a :: b :: (m ++ [z])) = z := by
      rw [lastD, show a :: b :: (m ++ [z]) = (a :: b :: m) ++ [z] by simp, List.getLastD_concat]
    rw [this]
    rfl

theorem opt_str (o : Option ℚ) : (AttrVal.opt o).str = (AttrVal.opt o).repr := by cases o <;> rfl

theorem shown_cells (e : Env) : (e.shown.map fun kv => kv.1) = (cells e).map (fun r => r.1) ∧
    List.Forall₂ (fun r v => r.2 v) (cells e) (e.shown.map fun kv => kv.2.str) := by
  rw [shown_eq]
  unfold cells
  constructor
  · simp
  · rw [List.map_append]
    refine List.rel_append (R := fun (r : Str × (Str → Prop)) v => r.2 v) ?_ ?_
    · simp only [List.map_cons, List.map_nil, opt_str]
      repeat' apply List.Forall₂.cons
      all_goals first
        | exact arrStr_spec _
        | exact sciStr_spec _
        | exact opt_spec _
        | exact natStr_spec _
        | rfl
        | exact List.Forall₂.nil
    · rw [List.map_map, List.forall₂_map_right_iff, List.forall₂_map_left_iff]
      exact List.forall₂_same.mpr fun x _ => sciStr_spec _

theorem lines_cons {a s : Str} (h : '\n' ∉ a) : lines (a ++ '\n' :: s) = a :: lines s := by
  unfold lines List.splitOn
  refine List.splitOnP_append_cons_of_forall_mem (fun x hx => ?_) _ (by simp) _
  simp only [beq_eq_false_iff_ne, ne_eq]
  rintro rfl
  exact h hx

theorem lines_rows {α : Type} (f : α → Str) (l : List α) (h : ∀ a ∈ l, '\n' ∉ f a) :
    lines (l.flatMap fun a => f a ++ ['\n']) = l.map f ++ [[]] := by
  induction l with
  | nil => rfl
  | cons a l ih =>
    rw [List.flatMap_cons, List.append_assoc, List.cons_append, List.nil_append, lines_cons (h a (by simp)),
      ih fun b hb => h b (List.mem_cons_of_mem _ hb)]
    rfl

theorem foldl_max (l : List ℕ) : ∀ n, (∀ x ∈ l, x ≤ l.foldl max n) ∧ n ≤ l.foldl max n ∧ (l.foldl max n = n ∨ l.foldl max n ∈ l) := by
  induction l with
  | nil => intro n; simp
  | cons a l ih =>
    intro n
    obtain ⟨h1, h2, h3⟩ := ih (max n a)
    simp only [List.foldl_cons]
    refine ⟨?_, by omega, ?_⟩
    · intro x hx
      rcases List.mem_cons.mp hx with rfl | hx
      · omega
      · exact h1 x hx
    · rcases h3 with h3 | h3
      · rcases le_total n a with h | h
        · right; rw [h3, max_eq_right h]; simp
        · left; rw [h3, max_eq_left h]
      · right; exact List.mem_cons_of_mem _ h3

theorem row_inj {k k' v v' : Str} {n n' : ℕ} (hk : ' ' ∉ k) (hk' : ' ' ∉ k') (hn : 0 < n) (hn' : 0 < n')
    (h : k ++ List.replicate n ' ' ++ ": ".toList ++ v = k' ++ List.replicate n' ' ' ++ ": ".toList ++ v') :
    k = k' ∧ v = v' := by
  have colon : ": ".toList = [':', ' '] := by decide
  rw [colon] at h
  simp only [List.append_assoc, List.cons_append, List.nil_append] at h
  have pad : ∀ (n n' : ℕ), List.replicate n ' ' ++ ':' :: ' ' :: v = List.replicate n' ' ' ++ ':' :: ' ' :: v' → v = v' := by
    intro n
    induction n with
    | zero =>
      intro n' h
      cases n' with
      | zero => simpa using h
      | succ n' => simp [List.replicate_succ] at h
    | succ n ih =>
      intro n' h
      cases n' with
      | zero => simp [List.replicate_succ] at h
      | succ n' =>
        refine ih n' ?_
        simpa [List.replicate_succ] using h
  induction k generalizing k' with
  | nil =>
    cases k' with
    | nil => exact ⟨rfl, pad _ _ h⟩
    | cons c k' =>
      obtain ⟨m, rfl⟩ : ∃ m, n = m + 1 := ⟨n - 1, by omega⟩
      simp only [List.replicate_succ, List.nil_append, List.cons_append, List.cons.injEq] at h
      exact absurd h.1 (by simp only [List.mem_cons, not_or] at hk'; exact hk'.1)
  | cons c k ih =>
    cases k' with
    | nil =>
      obtain ⟨m, rfl⟩ : ∃ m, n' = m + 1 := ⟨n' - 1, by omega⟩
      simp only [List.replicate_succ, List.nil_append, List.cons_append, List.cons.injEq] at h
      exact absurd h.1.symm (by simp only [List.mem_cons, not_or] at hk; exact hk.1)
    | cons c' k' =>
      simp only [List.cons_append, List.cons.injEq] at h
      simp only [List.mem_cons, not_or] at hk hk'
      obtain ⟨h1, h2⟩ := ih hk.2 hk'.2 h.2
      exact ⟨by rw [h.1, h1], h2⟩

theorem comma_inj {a b x y : Str} (ha : ',' ∉ a) (hb : ',' ∉ b) (h : a ++ ',' :: x = b ++ ',' :: y) : a = b ∧ x = y := by
  induction a generalizing b with
  | nil =>
    cases b with
    | nil => simpa using h
    | cons c b =>
      simp only [List.nil_append, List.cons_append, List.cons.injEq] at h
      simp only [List.mem_cons, not_or] at hb
      exact absurd h.1 hb.1
  | cons c a ih =>
    cases b with
    | nil =>
      simp only [List.nil_append, List.cons_append, List.cons.injEq] at h
      simp only [List.mem_cons, not_or] at ha
      exact absurd h.1.symm ha.1
    | cons c' b =>
      simp only [List.cons_append, List.cons.injEq] at h
      simp only [List.mem_cons, not_or] at ha hb
      obtain ⟨h1, h2⟩ := ih ha.2 hb.2 h.2
      exact ⟨by rw [h.1, h1], h2⟩

theorem intercalate_inj {ts us : List Str} (ht : ∀ t ∈ ts, t ≠ [] ∧ ',' ∉ t) (hu : ∀ t ∈ us, t ≠ [] ∧ ',' ∉ t)
    (h : ", ".toList.intercalate ts = ", ".toList.intercalate us) : ts = us := by
  have one : ∀ a : Str, ", ".toList.intercalate [a] = a := by intro a; simp [List.intercalate]
  have zero : ", ".toList.intercalate [] = [] := by simp [List.intercalate]
  induction ts generalizing us with
  | nil =>
    cases us with
    | nil => rfl
    | cons b us =>
      exfalso
      have hb := (hu b (by simp)).1
      cases us with
      | nil => rw [one, zero] at h; exact hb h.symm
      | cons c us => rw [intercalate_two, zero] at h; simp at h
  | cons a ts ih =>
    have ha := ht a (by simp)
    cases us with
    | nil =>
      exfalso
      cases ts with
      | nil => rw [one, zero] at h; exact ha.1 h
      | cons c us => rw [intercalate_two, zero] at h; simp at h
    | cons b us =>
      have hb := hu b (by simp)
      cases ts with
      | nil =>
        cases us with
        | nil => rw [one, one] at h; rw [h]
        | cons c us =>
          rw [one, intercalate_two] at h
          exact absurd (by rw [h]; simp) ha.2
      | cons c ts =>
        cases us with
        | nil =>
          rw [one, intercalate_two] at h
          exact absurd (by rw [← h]; simp) hb.2
        | cons d us =>
          rw [intercalate_two, intercalate_two] at h
          obtain ⟨rfl, h2⟩ := comma_inj ha.2 hb.2 h
          rw [ih (fun t h' => ht t (List.mem_cons_of_mem _ h')) (fun t h' => hu t (List.mem_cons_of_mem _ h')) (by simpa using h2)]

theorem numberText_inj {x x' : ℚ} {s : Str} (h : NumberText x s) (h' : NumberText x' s) (hx : Short x) (hx' : Short x') : x = x' := by
  obtain ⟨y, hy, -, h1⟩ := h
  obtain ⟨y', hy', -, h2⟩ := h'
  rw [hy] at hy'
  rw [← h1 hx, ← h2 hx', Option.some.inj hy']

theorem optText_inj {o o' : Option ℚ} {s : Str} (h : OptText o s) (h' : OptText o' s) (ho : ∀ x ∈ o, Short x)
    (ho' : ∀ x ∈ o', Short x) : o = o' := by
  have none_bad : ∀ x, ¬NumberText x "None".toList := by
    rintro x ⟨y, hy, -⟩
    have := (readSci_plain hy).2 'N' (by decide)
    revert this; decide
  cases o with
  | none =>
    cases o' with
    | none => rfl
    | some x => cases (show s = "None".toList from h); exact absurd h' (none_bad x)
  | some x =>
    cases o' with
    | none => cases (show s = "None".toList from h'); exact absurd h (none_bad x)
    | some x' => rw [numberText_inj h h' (ho x rfl) (ho' x' rfl)]

theorem numbers_inj {l l' : List ℚ} {ts : List Str} (h : List.Forall₂ NumberText l ts) (h' : List.Forall₂ NumberText l' ts)
    (hl : ∀ x ∈ l, Short x) (hl' : ∀ x ∈ l', Short x) : l = l' := by
  induction h generalizing l' with
  | nil => cases h'; rfl
  | cons h1 _ ih =>
    cases h' with
    | cons h2 h3 =>
      rw [numberText_inj h1 h2 (hl _ (by simp)) (hl' _ (by simp)),
        ih h3 (fun x hx => hl x (List.mem_cons_of_mem _ hx)) (fun x hx => hl' x (List.mem_cons_of_mem _ hx))]

theorem numbers_plain {l : List ℚ} {ts : List Str} (h : List.Forall₂ NumberText l ts) : ∀ t ∈ ts, t ≠ [] ∧ ',' ∉ t := by
  induction h with
  | nil => simp
  | cons h1 _ ih =>
    intro t ht
    rcases List.mem_cons.mp ht with rfl | ht
    · exact ⟨(numberText_plain h1).1, (numberText_plain h1).2.2.1⟩
    · exact ih t ht

theorem arrayText_inj {l l' : List ℚ} {s : Str} (h : ArrayText l s) (h' : ArrayText l' s) (hl : ∀ x ∈ l, Short x)
    (hl' : ∀ x ∈ l', Short x) (h4 : l.length ≤ 4) (h4' : l'.length ≤ 4) : l = l' := by
  obtain ⟨ts, h1, h2⟩ := h.1 h4
  obtain ⟨us, h3, h5⟩ := h'.1 h4'
  rw [h2, List.append_assoc, List.append_assoc] at h5
  have h6 := List.append_cancel_right (List.append_cancel_left h5)
  rw [intercalate_inj (numbers_plain h1) (numbers_plain h3) h6] at h1
  exact numbers_inj h1 h3 hl hl'

theorem quotedText_inj {a b s : Str} (h : QuotedText a s) (h' : QuotedText b s) : a = b := by
  obtain ⟨q, r, -, rfl, h1, -⟩ := h
  obtain ⟨q', r', -, heq, h2, -⟩ := h'
  obtain ⟨rfl, rfl⟩ := List.cons.inj heq
  exact Option.some.inj (h1.symm.trans h2)

theorem flagText_inj {a b : Bool} {s : Str} (h : FlagText a s) (h' : FlagText b s) : a = b := by
  unfold FlagText at h h'
  subst h
  cases a <;> cases b <;> first | rfl | (revert h'; decide)

theorem zip_inj {rs rs' : List (Str × (Str → Prop))} {vs vs' : List Str} {w w' : ℕ}
    (h : List.Forall₂ (fun r v => r.2 v) rs vs) (h' : List.Forall₂ (fun r v => r.2 v) rs' vs')
    (hr : ∀ r ∈ rs, ' ' ∉ r.1 ∧ r.1.length < w) (hr' : ∀ r ∈ rs', ' ' ∉ r.1 ∧ r.1.length < w')
    (he : List.zipWith (fun (r : Str × (Str → Prop)) v => r.1 ++ List.replicate (w - r.1.length) ' ' ++ ": ".toList ++ v) rs vs =
      List.zipWith (fun (r : Str × (Str → Prop)) v => r.1 ++ List.replicate (w' - r.1.length) ' ' ++ ": ".toList ++ v) rs' vs') :
    rs.map (fun r => r.1) = rs'.map (fun r => r.1) ∧ vs = vs' := by
  induction h generalizing rs' vs' with
  | nil =>
    cases h' with
    | nil => exact ⟨rfl, rfl⟩
    | cons _ _ => simp at he
  | @cons r v rs vs h1 _ ih =>
    cases h' with
    | nil => simp at he
    | @cons r' v' rs' vs' h2 h3 =>
      rw [List.zipWith_cons_cons, List.zipWith_cons_cons, List.cons.injEq] at he
      have a := hr r (by simp)
      have b := hr' r' (by simp)
      obtain ⟨hk, hv⟩ := row_inj a.1 b.1 (by omega) (by omega) he.1
      obtain ⟨h4, h5⟩ := ih h3 (fun x hx => hr x (List.mem_cons_of_mem _ hx)) (fun x hx => hr' x (List.mem_cons_of_mem _ hx)) he.2
      exact ⟨by rw [List.map_cons, List.map_cons, hk, h4], by rw [hv, h5]⟩

theorem extras_inj {l l' : List (Str × ℚ)} {vs : List Str}
    (h : List.Forall₂ (fun (r : Str × (Str → Prop)) v => r.2 v) (l.map fun kv => (kv.1, NumberText kv.2)) vs)
    (h' : List.Forall₂ (fun (r : Str × (Str → Prop)) v => r.2 v) (l'.map fun kv => (kv.1, NumberText kv.2)) vs)
    (hk : l.map (fun kv => kv.1) = l'.map (fun kv => kv.1)) (hl : ∀ kv ∈ l, Short kv.2) (hl' : ∀ kv ∈ l', Short kv.2) : l = l' := by
  induction l generalizing l' vs with
  | nil => cases l' <;> simp_all
  | cons x l ih =>
    cases l' with
    | nil => simp at hk
    | cons x' l' =>
      simp only [List.map_cons, List.cons.injEq] at h h' hk
      cases h with
      | cons h1 h2 =>
        cases h' with
        | cons h3 h4 =>
          have := numberText_inj h1 h3 (hl _ (by simp)) (hl' _ (by simp))
          rw [ih h2 h4 hk.2 (fun x hx => hl x (List.mem_cons_of_mem _ hx)) (fun x hx => hl' x (List.mem_cons_of_mem _ hx)),
            Prod.ext hk.1 this]

end PT
