import Verif.Spec.Seeded
import Mathlib.Tactic.NormNum
import Mathlib.Tactic.Linarith
import Mathlib.Data.Rat.Floor

/-!
# C148: random bits and their seeds
-/

namespace PT
open Spec

namespace Sdd

theorem rate_nat (s : ℕ) : toRate (s : ℚ) = s := by
  unfold toRate pyTrunc
  rw [if_pos (by positivity), Int.floor_eq_iff]
  push_cast
  constructor <;> linarith

theorem rate_int (s : ℤ) : toRate (s : ℚ) = if 0 ≤ s then s else s + 1 := by
  unfold toRate pyTrunc
  split <;> rename_i h
  · have hs : 0 ≤ s := by
      by_contra hc
      have : (s : ℚ) ≤ -1 := by exact_mod_cast (by omega : s ≤ -1)
      linarith
    rw [if_pos hs, Int.floor_eq_iff]
    constructor <;> linarith
  · have hs : ¬ 0 ≤ s := fun hc => by
      have : (0 : ℚ) ≤ s := by exact_mod_cast hc
      exact h (by linarith)
    rw [if_neg hs, Int.ceil_eq_iff]
    push_cast
    constructor <;> linarith

theorem state_of {ch : Chance} {s : ℤ} {r : RandomState} (h : randomState ch (some s) = .ok r) : r = ⟨ch.ofSeed s, 0⟩ := by
  change (if 0 ≤ s ∧ s < 2 ^ 32 then Except.ok (RandomState.mk (ch.ofSeed s) 0) else .error PyErr.valueError) = .ok r at h
  by_cases hc : 0 ≤ s ∧ s < 2 ^ 32
  · rw [if_pos hc] at h
    exact (Except.ok.inj h).symm
  · rw [if_neg hc] at h
    exact absurd h (by simp)

theorem state_ok {ch : Chance} {s : ℤ} (h : 0 ≤ s ∧ s < 2 ^ 32) : randomState ch (some s) = .ok ⟨ch.ofSeed s, 0⟩ := if_pos h

theorem state_iff {ch : Chance} {s : ℤ} : (∃ r, randomState ch (some s) = .ok r) ↔ 0 ≤ s ∧ s < 2 ^ 32 := by
  constructor
  · rintro ⟨r, hr⟩
    by_contra hc
    have : randomState ch (some s) = .error .valueError := if_neg hc
    rw [this] at hr
    exact absurd hr (by simp)
  · exact fun h => ⟨_, state_ok h⟩

/-- The seed of a generator that was given a natural number or nothing. -/
theorem make_seed {ch : Chance} {a : BitArgs} {own : Option ℕ} (ha : a.seed = own.map Nat.cast) {g : BitGenerator} (hg : BitGenerator.make ch a = .ok g) :
    g = ⟨a.bitrate, a.samplerate, a.cutoff, toRate a.order, own.map Nat.cast, ⟨Spec.Chance.source ch own, 0⟩⟩ := by
  unfold BitGenerator.make at hg
  cases own with
  | none =>
    rw [ha] at hg
    simp only [Option.map_none, randomState] at hg
    exact (Except.ok.inj hg).symm
  | some s =>
    rw [ha] at hg
    simp only [Option.map_some, rate_nat] at hg
    cases hr : randomState ch (some (s : ℤ)) with
    | error e => rw [hr] at hg; exact absurd hg (by simp)
    | ok r =>
      rw [hr] at hg
      rw [← Except.ok.inj hg, state_of hr]
      rfl

/-- A call with a seed that is the generator's own, or none. -/
theorem forward_own {ch : Chance} {butter : ℤ → ℚ → List ℝ × List ℝ} {g : BitGenerator} {own : Option ℕ} (hg : g.seed = own.map Nat.cast)
    {c : BitCall} (hc : OwnSeed own c) :
    g.forward ch butter c = (g.stream butter c g.rng, { g with rng := g.rng.advance c.bits.drawn }) := by
  unfold BitGenerator.forward
  rcases hc with h | ⟨s, rfl, h⟩
  · rw [h, if_pos rfl]
  · rw [h]
    simp only [rate_nat]
    rw [if_pos (by rw [hg]; rfl)]

/-- A call with another seed. -/
theorem forward_other {ch : Chance} {butter : ℤ → ℚ → List ℝ × List ℝ} {g : BitGenerator} {own : Option ℕ} (hg : g.seed = own.map Nat.cast)
    {c : BitCall} {s : ℕ} (hc : c.seed = some (s : ℚ)) (hs : own ≠ some s) :
    g.forward ch butter c = match randomState ch (some (s : ℤ)) with
      | .error e => (.error e, g)
      | .ok r => (g.stream butter c r, g) := by
  unfold BitGenerator.forward
  rw [hc]
  have hne : ¬ some (s : ℤ) = g.seed := by
    rw [hg]
    intro h
    cases own with
    | none => exact absurd h (by simp)
    | some t =>
      simp only [Option.map_some, Option.some.injEq, Int.natCast_inj] at h
      exact hs (by rw [h])
  simp only [rate_nat]
  rw [if_neg hne]
  cases randomState ch (some (s : ℤ)) <;> rfl

/-- Whether a call has another seed. -/
theorem other_of {own : Option ℕ} {c : BitCall} {s : ℕ} (hc : c.seed = some (s : ℚ)) (h : ¬ OwnSeed own c) : own ≠ some s :=
  fun e => h (.inr ⟨s, e, hc⟩)

/-- What calls change. -/
theorem after_eq {ch : Chance} {butter : ℤ → ℚ → List ℝ × List ℝ} {own : Option ℕ} (h : List BitCall)
    (hh : ∀ c ∈ h, c.seed = none ∨ ∃ s : ℕ, c.seed = some (s : ℚ)) (g : BitGenerator) (hg : g.seed = own.map Nat.cast) :
    g.after ch butter h = { g with rng := g.rng.advance (bitsAsked own h) } := by
  induction h generalizing g with
  | nil => rfl
  | cons c cs ih =>
    have hcs : ∀ c ∈ cs, c.seed = none ∨ ∃ s : ℕ, c.seed = some (s : ℚ) := fun d hd => hh d (List.mem_cons_of_mem _ hd)
    rw [BitGenerator.after, bitsAsked]
    by_cases hc : OwnSeed own c
    · rw [forward_own hg hc, if_pos hc]
      refine (ih hcs { g with rng := g.rng.advance c.bits.drawn } hg).trans ?_
      have e : c.bits.drawn = (match c.bits with | .number n => n | _ => 0) := by
        cases c.bits <;> rfl
      simp only [RandomState.advance, e, add_assoc]
      cases c.bits <;> rfl
    · obtain ⟨s, hs⟩ : ∃ s : ℕ, c.seed = some (s : ℚ) := (hh c (List.mem_cons_self ..)).resolve_left fun h => hc (.inl h)
      rw [forward_other hg hs (other_of hs hc), if_neg hc, Nat.zero_add]
      cases randomState ch (some (s : ℤ)) <;> exact ih hcs _ hg

/-- Random bits are as good as given ones. -/
theorem stream_bits (butter : ℤ → ℚ → List ℝ × List ℝ) (g : BitGenerator) (c : BitCall) (r r' : RandomState) (n : ℕ) :
    g.stream butter { c with bits := .number n } r = g.stream butter { c with bits := .array (r.bits n) } r' := by
  unfold BitGenerator.stream bitStream
  rfl

end Sdd

/-- C148 in full: a call with a seed gives what a new generator with that seed gives. -/
def C148_statement (ch : Chance) (butter : ℤ → ℚ → List ℝ × List ℝ) : Prop :=
  ∀ (a : BitArgs) (g : BitGenerator), BitGenerator.make ch a = .ok g → ∀ (h : List BitCall) (s : ℕ) (c : BitCall), c.seed = some (s : ℚ) →
    ((g.after ch butter h).forward ch butter c).1 =
      (BitGenerator.make ch { a with seed := some (s : ℚ) }).bind fun f => (f.forward ch butter { c with seed := none }).1

/-- C148, the part that holds: for seeds other than that of the constructor. -/
theorem C148_seed_partial (ch : Chance) (butter : ℤ → ℚ → List ℝ × List ℝ) (a : BitArgs) (own : Option ℕ) (ha : a.seed = own.map Nat.cast)
    (g : BitGenerator) (hg : BitGenerator.make ch a = .ok g) (h : List BitCall) (hh : ∀ c ∈ h, c.seed = none ∨ ∃ s : ℕ, c.seed = some (s : ℚ))
    (s : ℕ) (c : BitCall) (hc : c.seed = some (s : ℚ)) (hs : own ≠ some s) :
    ((g.after ch butter h).forward ch butter c).1 =
      (BitGenerator.make ch { a with seed := some (s : ℚ) }).bind (fun f => (f.forward ch butter { c with seed := none }).1) ∧
    ((g.after ch butter h).forward ch butter c).2 = g.after ch butter h := by
  have h1 := Sdd.make_seed ha hg
  have hgs : g.seed = own.map Nat.cast := by rw [h1]
  rw [Sdd.after_eq h hh g hgs, Sdd.forward_other (g := { g with rng := g.rng.advance (bitsAsked own h) }) hgs hc hs]
  unfold BitGenerator.make
  simp only [Option.map_some, Sdd.rate_nat]
  cases hr : randomState ch (some (s : ℤ)) with
  | error e => exact ⟨rfl, rfl⟩
  | ok r =>
    refine ⟨?_, rfl⟩
    show BitGenerator.stream butter _ c r = (BitGenerator.forward ch butter _ { c with seed := none }).1
    unfold BitGenerator.forward
    rw [if_pos rfl, h1]
    rfl

/-- C148. Without a seed, or with the seed of the constructor, calls cut the random bits of that seed in pieces: a call for `n` bits gives what it
gives for the next `n` of them. Calls that fail use up random bits as well; calls with other seeds and with given bits do not. -/
theorem C148_history (ch : Chance) (butter : ℤ → ℚ → List ℝ × List ℝ) (a : BitArgs) (own : Option ℕ) (ha : a.seed = own.map Nat.cast)
    (g : BitGenerator) (hg : BitGenerator.make ch a = .ok g) (h : List BitCall) (hh : ∀ c ∈ h, c.seed = none ∨ ∃ s : ℕ, c.seed = some (s : ℚ))
    (c : BitCall) (hc : OwnSeed own c) (n : ℕ) (hn : c.bits = .number n) :
    ((g.after ch butter h).forward ch butter c).1 =
      (g.forward ch butter { c with bits := .array ((List.range n).map fun i => coin (Spec.Chance.source ch own (bitsAsked own h + i))) }).1 := by
  have h1 := Sdd.make_seed ha hg
  have hgs : g.seed = own.map Nat.cast := by rw [h1]
  rw [Sdd.after_eq h hh g hgs, Sdd.forward_own (g := { g with rng := g.rng.advance (bitsAsked own h) }) (own := own) hgs hc]
  have h2 := Sdd.forward_own (ch := ch) (butter := butter) (own := own) hgs
    (c := { c with bits := .array ((List.range n).map fun i => coin (Spec.Chance.source ch own (bitsAsked own h + i))) }) hc
  rw [h2]
  have hcn : c = { c with bits := .number n } := by rw [← hn]
  rw [hcn]
  refine (Sdd.stream_bits butter _ c _ g.rng n).trans ?_
  have e : (g.rng.advance (bitsAsked own h)).bits n = (List.range n).map fun i => coin (Spec.Chance.source ch own (bitsAsked own h + i)) := by
    rw [h1]
    unfold RandomState.bits RandomState.advance coin
    simp only [Nat.zero_add]
  rw [e]
  rfl

/-- C148 is refuted: with the seed of the constructor, the second call with that seed gives other bits than the first, unless all random bits of
the seed are equal. -/
theorem C148_violation (ch : Chance) (butter : ℤ → ℚ → List ℝ × List ℝ) (s : ℕ) (hs : s < 2 ^ 32)
    (hv : ∃ i j, coin (ch.ofSeed s i) ≠ coin (ch.ofSeed s j)) : ¬ C148_statement ch butter := by
  intro H
  obtain ⟨k, hk⟩ : ∃ k, coin (ch.ofSeed s k) ≠ coin (ch.ofSeed s 0) := by
    obtain ⟨i, j, hij⟩ := hv
    by_cases h : coin (ch.ofSeed s i) = coin (ch.ofSeed s 0)
    · exact ⟨j, fun h' => hij (h.trans h'.symm)⟩
    · exact ⟨i, h⟩
  let a : BitArgs := ⟨1, 1, none, 1, some (s : ℚ)⟩
  let c (n : ℕ) : BitCall := ⟨.number n, none, none, none, none, some (s : ℚ), none⟩
  have hok : BitGenerator.make ch a = .ok ⟨1, 1, none, toRate 1, some s, ⟨ch.ofSeed s, 0⟩⟩ := by
    unfold BitGenerator.make
    have hs' : 0 ≤ (s : ℤ) ∧ (s : ℤ) < 2 ^ 32 := ⟨by positivity, by norm_num at hs ⊢; omega⟩
    simp only [a, Option.map_some, Sdd.rate_nat, Sdd.state_ok hs']
  have h1 := H a _ hok [c k] s (c 1) rfl
  have e : { a with seed := some (s : ℚ) } = a := rfl
  rw [e, hok] at h1
  have own : (some (s : ℤ)) = (some s).map Nat.cast := rfl
  have one : ∀ x : ℝ, bitStream (V := ℝ) (fun n => List.replicate n x) (butter (toRate 1)) (.number 1) 1 1 none = .ok [x] := by
    intro x
    unfold bitStream
    have r1 : toRate 1 = 1 := by decide +kernel
    simp [refined, r1, repeatEach, stride, pure, Except.pure, bind, Except.bind]
  have first : ∀ q r : RandomState, BitGenerator.stream butter ⟨1, 1, none, toRate 1, some (s : ℤ), q⟩ (c 1) r =
      .ok [coin (r.numbers r.given)] := by
    intro q r
    rw [← one]
    unfold BitGenerator.stream bitStream
    rfl
  rw [Sdd.after_eq (own := some s) [c k] (by simp [c]) _ own, Sdd.forward_own (own := some s) own (.inr ⟨s, rfl, rfl⟩)] at h1
  have h2 : (Except.ok [coin (ch.ofSeed s k)] : Except PyErr (List ℝ)) = .ok [coin (ch.ofSeed s 0)] := by
    have ha : bitsAsked (some s) [c k] = k := by
      simp only [bitsAsked]
      rw [if_pos (.inr ⟨s, rfl, rfl⟩)]
      rfl
    rw [ha] at h1
    have e1 := first ⟨ch.ofSeed s, 0 + k⟩ ⟨ch.ofSeed s, 0 + k⟩
    have e2 := first ⟨ch.ofSeed s, 0⟩ ⟨ch.ofSeed s, 0⟩
    have h4 : BitGenerator.stream butter ⟨1, 1, none, toRate 1, some (s : ℤ), ⟨ch.ofSeed s, 0 + k⟩⟩ (c 1) ⟨ch.ofSeed s, 0 + k⟩ =
        BitGenerator.stream butter ⟨1, 1, none, toRate 1, some (s : ℤ), ⟨ch.ofSeed s, 0⟩⟩ (c 1) ⟨ch.ofSeed s, 0⟩ := by
      refine Eq.trans h1 ?_
      show (BitGenerator.forward ch butter _ { c 1 with seed := none }).1 = _
      rw [Sdd.forward_own (own := some s) own (.inl rfl)]
      rfl
    rw [e1, e2] at h4
    simp only [Nat.zero_add] at h4
    exact h4
  have h3 := Except.ok.inj h2
  exact hk (List.cons.inj h3).1

/-- C148. Exactly which whole numbers are accepted as seeds. -/
theorem C148_accepts (ch : Chance) (a : BitArgs) (s : ℤ) :
    (∃ g, BitGenerator.make ch { a with seed := some (s : ℚ) } = .ok g) ↔ -1 ≤ s ∧ s < 2 ^ 32 := by
  have h := Sdd.state_iff (ch := ch) (s := toRate (s : ℚ))
  rw [Sdd.rate_int] at h
  have h' : (∃ r, randomState ch (some (if 0 ≤ s then s else s + 1)) = .ok r) ↔ -1 ≤ s ∧ s < 2 ^ 32 := by
    rw [h]
    split <;> constructor <;> intro h <;> omega
  rw [← h']
  unfold BitGenerator.make
  simp only [Option.map_some, Sdd.rate_int]
  cases randomState ch (some (if 0 ≤ s then s else s + 1)) with
  | error e => simp
  | ok r => simp

/-- C148. The seed -1 is the seed 0. -/
theorem C148_minus_one (ch : Chance) (a : BitArgs) :
    BitGenerator.make ch { a with seed := some (-1) } = BitGenerator.make ch { a with seed := some 0 } := by
  unfold BitGenerator.make
  have h1 : toRate (-1) = 0 := by decide +kernel
  have h2 : toRate 0 = 0 := by decide +kernel
  simp only [Option.map_some, h1, h2]

/-- Not vacuous: random numbers that are alternately small and large. -/
example : ∃ (ch : Chance) (s : ℕ), s < 2 ^ 32 ∧ ∃ i j, coin (ch.ofSeed s i) ≠ coin (ch.ofSeed s j) :=
  ⟨⟨fun _ i => if i % 2 = 0 then 0 else 1, fun _ => 0⟩, 7, by norm_num, 0, 1, by unfold coin; norm_num⟩

/-- A history: bits of the own seed, bits of another seed, given bits, and a call that fails for want of a sample rate; the next call goes on after
the seven random bits of the own seed. -/
example : bitsAsked (some 3) [⟨.number 4, none, none, none, none, none, none⟩, ⟨.number 9, none, none, none, none, some (5 : ℕ), none⟩,
    ⟨.array [1, 0], none, none, none, none, some (3 : ℕ), none⟩, ⟨.number 3, none, some 0, none, none, some (3 : ℕ), none⟩] = 7 := by
  have h1 : OwnSeed (some 3) ⟨.number 4, none, none, none, none, none, none⟩ := .inl rfl
  have h2 : ¬ OwnSeed (some 3) ⟨.number 9, none, none, none, none, some (5 : ℕ), none⟩ := by
    rintro (h | ⟨s, h, h'⟩)
    · exact absurd h (by simp)
    · cases h
      norm_num at h'
  have h3 : OwnSeed (some 3) ⟨.array [1, 0], none, none, none, none, some (3 : ℕ), none⟩ := .inr ⟨3, rfl, rfl⟩
  have h4 : OwnSeed (some 3) ⟨.number 3, none, some 0, none, none, some (3 : ℕ), none⟩ := .inr ⟨3, rfl, rfl⟩
  simp only [bitsAsked, if_pos h1, if_neg h2, if_pos h3, if_pos h4]

end PT
