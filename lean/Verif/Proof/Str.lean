import Verif.Model.Network
import Verif.Proof.Basic
import Mathlib.Tactic

/-! Lemmas about printing, parsing and dictionaries. -/

namespace PT

theorem digitVal_digitChar {d : ℕ} (h : d < 10) : digitVal (digitChar d) = some d := by
  interval_cases d <;> decide

theorem natStr_mem {n : ℕ} : ∀ c ∈ natStr n, ∃ d < 10, c = digitChar d := by
  induction n using Nat.strong_induction_on with
  | _ n ih =>
    intro c hc
    rw [natStr] at hc
    split at hc
    · exact ⟨n, by omega, by simpa using hc⟩
    · rcases List.mem_append.mp hc with hc | hc
      · exact ih (n / 10) (by omega) c hc
      · exact ⟨n % 10, by omega, by simpa using hc⟩

theorem natStr_ne_nil (n : ℕ) : natStr n ≠ [] := by
  rw [natStr]; split <;> simp

theorem digitChar_plain {d : ℕ} (h : d < 10) : isSpace (digitChar d) = false ∧ digitChar d ≠ ':' ∧
    digitChar d ≠ '-' ∧ digitChar d ≠ '+' ∧ digitChar d ≠ '.' := by
  interval_cases d <;> decide

theorem parseDigits_natStr (n : ℕ) : ∀ (acc : ℕ) (p : Bool) (t : Str),
    parseDigits acc p (natStr n ++ t) = parseDigits (acc * 10 ^ (natStr n).length + n) true t := by
  induction n using Nat.strong_induction_on with
  | _ n ih =>
    intro acc p t
    rw [natStr]
    split
    · rename_i h
      simp [parseDigits, digitVal_digitChar h]
    · rename_i h
      have h10 : n % 10 < 10 := by omega
      rw [List.append_assoc, ih (n / 10) (by omega)]
      simp only [List.cons_append, List.nil_append, parseDigits, digitVal_digitChar h10,
        List.length_append, List.length_cons, List.length_nil]
      congr 1
      rw [pow_succ, add_mul, mul_assoc]
      omega

theorem noSpace_strip {s : Str} (h : ∀ c ∈ s, isSpace c = false) : strip s = s := by
  unfold strip
  have h1 : s.dropWhile isSpace = s := by
    cases s with
    | nil => rfl
    | cons a l => rw [List.dropWhile_cons, if_neg]; simp [h a (by simp)]
  rw [h1]
  have h2 : s.reverse.dropWhile isSpace = s.reverse := by
    cases hs : s.reverse with
    | nil => rfl
    | cons a l =>
      rw [List.dropWhile_cons, if_neg]
      have : a ∈ s := by rw [← List.mem_reverse, hs]; simp
      simp [h a this]
  rw [h2, List.reverse_reverse]

theorem intStr_mem {z : ℤ} : ∀ c ∈ intStr z, c = '-' ∨ ∃ d < 10, c = digitChar d := by
  intro c hc
  unfold intStr at hc
  split at hc
  · rcases List.mem_cons.mp hc with hc | hc
    · exact .inl hc
    · exact .inr (natStr_mem c hc)
  · exact .inr (natStr_mem c hc)

theorem intStr_noSpace (z : ℤ) : ∀ c ∈ intStr z, isSpace c = false := by
  intro c hc
  rcases intStr_mem c hc with rfl | ⟨d, hd, rfl⟩
  · decide
  · exact (digitChar_plain hd).1

theorem intStr_noColon (z : ℤ) : ':' ∉ intStr z := by
  intro hc
  rcases intStr_mem _ hc with h | ⟨d, hd, h⟩
  · exact absurd h (by decide)
  · exact (digitChar_plain hd).2.1 h.symm

theorem pyInt_intStr (z : ℤ) : pyInt (intStr z) = some z := by
  unfold pyInt
  rw [noSpace_strip (intStr_noSpace z)]
  have key : ∀ n : ℕ, parseDigits 0 false (natStr n) = some n := by
    intro n
    have := parseDigits_natStr n 0 false []
    simpa [parseDigits] using this
  unfold intStr
  by_cases hz : z < 0
  · simp only [hz, if_true, key, Option.map_some, Option.some.injEq]
    rw [Int.natCast_natAbs, abs_of_neg hz, neg_neg]
  · simp only [hz, if_false]
    have hh : ∀ t, natStr z.natAbs ≠ '-' :: t ∧ natStr z.natAbs ≠ '+' :: t := by
      intro t
      constructor
      · intro h
        obtain ⟨d, hd, hd'⟩ := natStr_mem (n := z.natAbs) '-' (by rw [h]; simp)
        exact (digitChar_plain hd).2.2.1 hd'.symm
      · intro h
        obtain ⟨d, hd, hd'⟩ := natStr_mem (n := z.natAbs) '+' (by rw [h]; simp)
        exact (digitChar_plain hd).2.2.2.1 hd'.symm
    split
    · rename_i h; exact absurd h (hh _).1
    · rename_i h; exact absurd h (hh _).2
    · rw [key, Option.map_some, Option.some.injEq]
      rw [Int.natCast_natAbs, abs_of_nonneg (not_lt.mp hz)]

theorem intStr_natCast (n : ℕ) : intStr (n : ℤ) = natStr n := by
  simp [intStr]

theorem intStr_strip (z : ℤ) : strip (intStr z) = intStr z := noSpace_strip (intStr_noSpace z)

theorem splitColon_join {l : List Str} (h : ∀ s ∈ l, ':' ∉ s) (hl : l ≠ []) :
    splitColon (joinColon l) = l := List.splitOn_intercalate _ h hl

theorem joinColon_split (s : Str) : joinColon (splitColon s) = s := List.intercalate_splitOn _

/-! ### mapE -/

theorem mapE_ok {α β : Type} {f : α → Except PyErr β} {l : List α} {r : List β} :
    mapE f l = .ok r ↔ List.Forall₂ (fun a b => f a = .ok b) l r := by
  induction l generalizing r with
  | nil =>
    simp only [mapE, Except.ok.injEq]
    constructor
    · rintro rfl; exact .nil
    · intro h; cases h; rfl
  | cons a l ih =>
    simp only [mapE]
    cases hfa : f a with
    | error e =>
      simp only [reduceCtorEq, false_iff]
      intro h; cases h with | cons h1 _ => rw [hfa] at h1; cases h1
    | ok b =>
      cases hml : mapE f l with
      | error e =>
        simp only [reduceCtorEq, false_iff]
        intro h
        cases h with
        | cons h1 h2 => rw [← ih, hml] at h2; cases h2
      | ok bs =>
        simp only [Except.ok.injEq]
        constructor
        · rintro rfl; exact .cons hfa (ih.mp hml)
        · intro h
          cases h with
          | cons h1 h2 =>
            rw [hfa] at h1; cases h1
            rw [← ih, hml] at h2; cases h2; rfl

theorem mapE_map_ok {α β γ : Type} {f : β → Except PyErr γ} {g : α → β} {h : α → γ} (l : List α)
    (H : ∀ a ∈ l, f (g a) = .ok (h a)) : mapE f (l.map g) = .ok (l.map h) := by
  induction l with
  | nil => rfl
  | cons a l ih =>
    simp only [List.map_cons, mapE, H a (by simp), ih (fun b hb => H b (by simp [hb]))]

theorem mapE_error {α β : Type} {f : α → Except PyErr β} {l : List α} {e : PyErr}
    (h : mapE f l = .error e) : ∃ a ∈ l, f a = .error e := by
  induction l with
  | nil => cases h
  | cons a l ih =>
    simp only [mapE] at h
    cases hfa : f a with
    | error e' => rw [hfa] at h; simp only [Except.error.injEq] at h; exact ⟨a, by simp, h ▸ hfa⟩
    | ok b =>
      rw [hfa] at h
      cases hml : mapE f l with
      | error e' =>
        rw [hml] at h; simp only [Except.error.injEq] at h
        obtain ⟨a', ha', h'⟩ := ih (by rw [hml, h])
        exact ⟨a', by simp [ha'], h'⟩
      | ok bs => rw [hml] at h; cases h

/-- If some element fails, the loop fails with the error of an element. -/
theorem mapE_of_error {α β : Type} {f : α → Except PyErr β} {l : List α} {a : α} (ha : a ∈ l)
    {e : PyErr} (h : f a = .error e) : ∃ e', mapE f l = .error e' := by
  cases hm : mapE f l with
  | error e' => exact ⟨e', rfl⟩
  | ok r =>
    exfalso
    rw [mapE_ok] at hm
    induction hm with
    | nil => cases ha
    | @cons x y l r hxy _ ih =>
      rcases List.mem_cons.mp ha with rfl | ha
      · rw [h] at hxy; cases hxy
      · exact ih ha

/-! ### dedupFirst and dictionaries -/

theorem mem_dedupFirst {α : Type} [DecidableEq α] {l : List α} {a : α} : a ∈ dedupFirst l ↔ a ∈ l := by
  induction l with
  | nil => simp [dedupFirst]
  | cons b l ih =>
    simp only [dedupFirst, List.mem_cons, List.mem_filter, decide_eq_true_eq, ih]
    by_cases h : a = b <;> simp [h]

theorem nodup_dedupFirst {α : Type} [DecidableEq α] (l : List α) : (dedupFirst l).Nodup := by
  induction l with
  | nil => simp [dedupFirst]
  | cons b l ih =>
    simp only [dedupFirst, List.nodup_cons, List.mem_filter, not_and]
    exact ⟨by simp, ih.filter _⟩

theorem dictGet_mem {κ β : Type} [DecidableEq κ] {k : κ} {v : β} {l : List (κ × β)}
    (h : dictGet k l = some v) : (k, v) ∈ l := by
  induction l with
  | nil => simp [dictGet] at h
  | cons p l ih =>
    obtain ⟨k', v'⟩ := p
    simp only [dictGet] at h
    split at h
    · simp_all
    · exact List.mem_cons_of_mem _ (ih h)

theorem dictGet_none {κ β : Type} [DecidableEq κ] {k : κ} {l : List (κ × β)} :
    dictGet k l = none ↔ k ∉ l.map Prod.fst := by
  induction l with
  | nil => simp [dictGet]
  | cons p l ih =>
    obtain ⟨k', v'⟩ := p
    simp only [dictGet]
    split
    · rename_i h; simp [h]
    · rename_i h
      rw [ih]; simp only [List.map_cons, List.mem_cons, not_or]
      exact ⟨fun h' => ⟨fun e => h e.symm, h'⟩, fun h' => h'.2⟩

theorem dictGet_set {κ β : Type} [DecidableEq κ] (k k' : κ) (v : β) (l : List (κ × β)) :
    dictGet k' (dictSet k v l) = if k' = k then some v else dictGet k' l := by
  induction l with
  | nil =>
    simp only [dictSet, dictGet]
    by_cases h : k' = k
    · simp [h]
    · rw [if_neg (fun e => h e.symm), if_neg h]
  | cons p l ih =>
    obtain ⟨a, b⟩ := p
    simp only [dictSet]
    split
    · rename_i h
      subst h
      simp only [dictGet]
      by_cases h : k' = a
      · simp [h]
      · rw [if_neg (fun e => h e.symm), if_neg h, if_neg (fun e => h e.symm)]
    · rename_i h
      simp only [dictGet, ih]
      by_cases ha : a = k'
      · subst ha; simp [h]
      · simp [ha]

theorem dictSet_new {κ β : Type} [DecidableEq κ] {k : κ} {v : β} {l : List (κ × β)}
    (h : k ∉ l.map Prod.fst) : dictSet k v l = l ++ [(k, v)] := by
  induction l with
  | nil => rfl
  | cons p l ih =>
    obtain ⟨a, b⟩ := p
    simp only [List.map_cons, List.mem_cons, not_or] at h
    have h1 : ¬ a = k := fun e => h.1 e.symm
    simp only [dictSet, if_neg h1, ih h.2, List.cons_append]

theorem dictSet_keys {κ β : Type} [DecidableEq κ] {k : κ} {v : β} {l : List (κ × β)}
    (h : k ∈ l.map Prod.fst) : (dictSet k v l).map Prod.fst = l.map Prod.fst := by
  induction l with
  | nil => simp at h
  | cons p l ih =>
    obtain ⟨a, b⟩ := p
    simp only [dictSet]
    split
    · rename_i h'; simp [h']
    · rename_i h'
      simp only [List.map_cons, List.mem_cons] at h
      rcases h with h | h
      · exact absurd h.symm h'
      · simp [ih h]

end PT
