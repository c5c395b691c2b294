import Verif.Spec.Nested

/-!
# Specification: circuits with open ports that cannot be told apart
-/

namespace PT.Spec

/-- A circuit in a steady state: while the sources emit `emit` and light `a k` enters its `k`-th open port, `b k` leaves that port and the
detectors receive `heard`. -/
def Responds (s : Sheet) (wl : ℝ) (emit heard : Str → ℂ) (a b : ℕ → ℂ) : Prop :=
  ∃ A B, Steady s.parts s.conns wl emit A B ∧ (∀ q ∈ s.parts, isDetector q.2 = true → A q.1 0 = heard q.1) ∧
    ∀ k e, s.free[k]? = some e → A e.1 e.2.toNat = a k ∧ B e.1 e.2.toNat = b k

/-- The same in time, for `T` steps. -/
def RespondsInTime (s : Sheet) (wl v dt : ℝ) (T : ℕ) (emit heard : ℕ → Str → ℂ) (a b : ℕ → ℕ → ℂ) : Prop :=
  ∃ A B, Moving s.parts s.conns wl v dt T emit A B ∧
    (∀ t < T, ∀ q ∈ s.parts, isDetector q.2 = true → A t q.1 0 = heard t q.1) ∧
    ∀ t < T, ∀ k e, s.free[k]? = some e → A t e.1 e.2.toNat = a t k ∧ B t e.1 e.2.toNat = b t k

/-- Two circuits that respond alike. -/
structure Alike (wl : ℝ) (s s' : Sheet) : Prop where
  ports : s.free.length = s'.free.length
  responds : ∀ emit heard a b, Responds s wl emit heard a b ↔ Responds s' wl emit heard a b

/-- Two circuits that respond alike in time. -/
structure AlikeInTime (wl v dt : ℝ) (s s' : Sheet) : Prop where
  ports : s.free.length = s'.free.length
  responds : ∀ T emit heard a b, RespondsInTime s wl v dt T emit heard a b ↔ RespondsInTime s' wl v dt T emit heard a b

/-- No light circulates inside if none is emitted and none enters. -/
def Still (wl : ℝ) (s : Sheet) : Prop :=
  ∀ A B, Steady s.parts s.conns wl (fun _ => 0) A B → (∀ e ∈ s.free, A e.1 e.2.toNat = 0) → ∀ q ∈ s.parts, ∀ i < q.2.n, A q.1 i = 0

/-- No light circulates inside within the first step. -/
def StillInTime (wl v dt : ℝ) (s : Sheet) : Prop :=
  ∀ A B, Moving s.parts s.conns wl v dt 1 (fun _ _ => 0) A B → (∀ e ∈ s.free, A 0 e.1 e.2.toNat = 0) →
    ∀ q ∈ s.parts, ∀ i < q.2.n, A 0 q.1 i = 0

end PT.Spec
