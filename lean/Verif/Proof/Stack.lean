import Verif.Spec.Scoping

/-! Lemmas relating the stack interpreters to the lexical meanings. -/

namespace PT
open Spec

theorem known_mono {p : EnvProg} : ∀ {n m : ℕ}, Known n p → n ≤ m → Known m p := by
  induction p with
  | seq p q ihp ihq => intro n m h hm; exact ⟨ihp h.1 hm, ihq h.2 hm⟩
  | withEnv x p ih => intro n m h hm; exact ⟨lt_of_lt_of_le h.1 hm, ih h.2 hm⟩
  | tryExcept p q ihp ihq => intro n m h hm; exact ⟨ihp h.1 hm, ihq h.2 hm⟩
  | _ => intros; trivial

/-- The result of a run agrees with the lexical meaning as far as environments are concerned. -/
structure EnvAgree (s : EnvSt) (sc : Scope) (r : EnvSt × Except PyErr Unit)
    (m : Scope × Except PyErr Unit) : Prop where
  out : r.2 = m.2
  cur : m.1.cur = r.1.stack.head?
  fresh : m.1.fresh = r.1.fresh
  log : m.1.log.map Prod.fst = r.1.log.map Prod.fst
  mono : s.fresh ≤ r.1.fresh
  sets : sc.sets ≤ m.1.sets
  ext : ∃ l, r.1.stack = l ++ s.stack ∧ (∀ y, l.head? = some y → s.fresh ≤ y.id) ∧ (l = [] ↔ m.1.sets = sc.sets)

theorem env_agree (p : EnvProg) : ∀ (s : EnvSt) (sc : Scope), Known s.fresh p →
    sc.cur = s.stack.head? → sc.fresh = s.fresh → sc.log.map Prod.fst = s.log.map Prod.fst →
    EnvAgree s sc (p.run s) (meaning p sc) := by
  induction p with
  | skip => intro s sc hk h1 h2 h3; exact ⟨rfl, h1, h2, h3, le_rfl, le_rfl, [], by simp [EnvProg.run], by simp, by simp [meaning]⟩
  | raise e => intro s sc hk h1 h2 h3; exact ⟨rfl, h1, h2, h3, le_rfl, le_rfl, [], by simp [EnvProg.run], by simp, by simp [meaning]⟩
  | setGrad b => intro s sc hk h1 h2 h3; exact ⟨rfl, h1, h2, h3, le_rfl, le_rfl, [], by simp [EnvProg.run], by simp, by simp [meaning]⟩
  | setEnv g =>
    intro s sc hk h1 h2 h3
    refine ⟨rfl, ?_, ?_, h3, ?_, ?_, [⟨s.fresh, g⟩], ?_, ?_, ?_⟩ <;>
      simp [EnvProg.run, meaning, envEnter, h2]
  | observe =>
    intro s sc hk h1 h2 h3
    cases hst : s.stack with
    | nil =>
      rw [hst] at h1
      simp only [List.head?_nil] at h1
      have hr : EnvProg.run .observe s = (s, .error .runtimeError) := by
        simp [EnvProg.run, currentEnvironment, hst]
      have hm : meaning .observe sc = (sc, .error .runtimeError) := by simp [meaning, h1]
      rw [hr, hm]
      exact ⟨rfl, by simp [h1, hst], h2, h3, le_rfl, le_rfl, [], by simp, by simp, by simp⟩
    | cons x st =>
      rw [hst] at h1
      simp only [List.head?_cons] at h1
      have hr : EnvProg.run .observe s = ({ s with log := s.log ++ [(x, s.grad)] }, .ok ()) := by
        simp [EnvProg.run, currentEnvironment, hst]
      have hm : meaning .observe sc = ({ sc with log := sc.log ++ [(x, sc.grad)] }, .ok ()) := by
        simp [meaning, h1]
      rw [hr, hm]
      exact ⟨rfl, by simp [h1, hst], h2, by simp [h3], le_rfl, le_rfl, [], by simp, by simp, by simp⟩
  | seq p q ihp ihq =>
    intro s sc hk h1 h2 h3
    have A := ihp s sc hk.1 h1 h2 h3
    unfold EnvProg.run meaning
    rcases hr : p.run s with ⟨s', o⟩
    rcases hm : meaning p sc with ⟨sc', o'⟩
    rw [hr, hm] at A
    have ho := A.out
    simp only at ho
    subst ho
    cases o with
    | error e => exact A
    | ok u =>
      have B := ihq s' sc' (known_mono hk.2 A.mono) A.cur A.fresh A.log
      obtain ⟨l, hl1, hl2, hl3⟩ := A.ext
      obtain ⟨l', hl1', hl2', hl3'⟩ := B.ext
      refine ⟨B.out, B.cur, B.fresh, B.log, A.mono.trans B.mono, A.sets.trans B.sets,
        l' ++ l, by simp only at hl1 hl1' ⊢; rw [hl1', hl1]; simp, ?_, ?_⟩
      · intro y hy
        cases l' with
        | nil => exact hl2 y (by simpa using hy)
        | cons z l' => exact A.mono.trans (hl2' y (by simpa using hy))
      · have := A.sets; have := B.sets
        simp only at *
        rw [List.append_eq_nil_iff, hl3, hl3']
        omega
  | tryExcept p q ihp ihq =>
    intro s sc hk h1 h2 h3
    have A := ihp s sc hk.1 h1 h2 h3
    unfold EnvProg.run meaning
    rcases hr : p.run s with ⟨s', o⟩
    rcases hm : meaning p sc with ⟨sc', o'⟩
    rw [hr, hm] at A
    have ho := A.out
    simp only at ho
    subst ho
    cases o with
    | ok u => exact A
    | error e =>
      have B := ihq s' sc' (known_mono hk.2 A.mono) A.cur A.fresh A.log
      obtain ⟨l, hl1, hl2, hl3⟩ := A.ext
      obtain ⟨l', hl1', hl2', hl3'⟩ := B.ext
      refine ⟨B.out, B.cur, B.fresh, B.log, A.mono.trans B.mono, A.sets.trans B.sets,
        l' ++ l, by simp only at hl1 hl1' ⊢; rw [hl1', hl1]; simp, ?_, ?_⟩
      · intro y hy
        cases l' with
        | nil => exact hl2 y (by simpa using hy)
        | cons z l' => exact A.mono.trans (hl2' y (by simpa using hy))
      · have := A.sets; have := B.sets
        simp only at *
        rw [List.append_eq_nil_iff, hl3, hl3']
        omega
  | withEnv x p ih =>
    intro s sc hk h1 h2 h3
    have A := ih (envEnter x s) { sc with cur := some x, grad := x.grad } hk.2 rfl h2 h3
    unfold EnvProg.run meaning
    rcases hr : p.run (envEnter x s) with ⟨s', o⟩
    rcases hm : meaning p { sc with cur := some x, grad := x.grad } with ⟨sc', o'⟩
    rw [hr, hm] at A
    have ho := A.out
    simp only at ho
    subst ho
    obtain ⟨l, hl1, hl2, hl3⟩ := A.ext
    have hfr : (envEnter x s).fresh = s.fresh := rfl
    have hsk : (envEnter x s).stack = x :: s.stack := rfl
    simp only at hl1 hl3 ⊢
    rw [hsk] at hl1
    cases l with
    | nil =>
      have he : envExit x s' o = ({ s' with stack := s.stack, grad := s'.prev x.id }, o) := by
        simp at hl1
        simp [envExit, hl1]
      have hs : sc'.sets = sc.sets := hl3.mp rfl
      rw [he]
      exact ⟨rfl, by simp [hs, h1], A.fresh, A.log, A.mono, A.sets, [], by simp, by simp, by simp [hs]⟩
    | cons y l =>
      have hy : s.fresh ≤ y.id := hl2 y (by simp)
      have hne : y.id ≠ x.id := by have := hk.1; omega
      have hstk : s'.stack = y :: (l ++ x :: s.stack) := by simpa using hl1
      have he : envExit x s' o = ({ s' with grad := s'.prev x.id }, o) := by
        simp [envExit, hstk, hne]
      have hs : ¬ sc'.sets = sc.sets := fun h => by simpa using hl3.mpr h
      rw [he]
      refine ⟨rfl, ?_, A.fresh, A.log, A.mono, A.sets, y :: (l ++ [x]), by simp [hstk], ?_, by simp [hs]⟩
      · have := A.cur
        simp only at this
        simp [hs, this]
      · intro z hz
        simp only [List.head?_cons, Option.some.injEq] at hz
        exact hz ▸ hy

/-- With no re-entry, gradient modes and full observations agree as well, and the modes saved for open
environments are preserved. -/
theorem grad_agree (p : EnvProg) : ∀ (s : EnvSt) (sc : Scope) (live : List ℕ), Known s.fresh p →
    NoReentry live p → (∀ i ∈ live, i < s.fresh) →
    sc.cur = s.stack.head? → sc.fresh = s.fresh → sc.log = s.log → sc.grad = s.grad →
    (meaning p sc).1.grad = (p.run s).1.grad ∧ (meaning p sc).1.log = (p.run s).1.log ∧
      ∀ i ∈ live, (p.run s).1.prev i = s.prev i := by
  induction p with
  | skip => intro s sc live hk hn hl h1 h2 h3 h4; exact ⟨h4, h3, fun _ _ => rfl⟩
  | raise e => intro s sc live hk hn hl h1 h2 h3 h4; exact ⟨h4, h3, fun _ _ => rfl⟩
  | setGrad b => intro s sc live hk hn hl h1 h2 h3 h4; exact ⟨rfl, h3, fun _ _ => rfl⟩
  | setEnv g =>
    intro s sc live hk hn hl h1 h2 h3 h4
    refine ⟨rfl, h3, fun i hi => ?_⟩
    have := hl i hi
    have hne : i ≠ s.fresh := by omega
    simp [EnvProg.run, envEnter, hne]
  | observe =>
    intro s sc live hk hn hl h1 h2 h3 h4
    cases hst : s.stack with
    | nil =>
      rw [hst] at h1
      simp only [List.head?_nil] at h1
      simp [EnvProg.run, currentEnvironment, hst, meaning, h1, h3, h4]
    | cons x st =>
      rw [hst] at h1
      simp only [List.head?_cons] at h1
      simp [EnvProg.run, currentEnvironment, hst, meaning, h1, h3, h4]
  | seq p q ihp ihq =>
    intro s sc live hk hn hl h1 h2 h3 h4
    have A := env_agree p s sc hk.1 h1 h2 (by rw [h3])
    have G := ihp s sc live hk.1 hn.1 hl h1 h2 h3 h4
    unfold EnvProg.run meaning
    rcases hr : p.run s with ⟨s', o⟩
    rcases hm : meaning p sc with ⟨sc', o'⟩
    rw [hr, hm] at A G
    have ho := A.out
    simp only at ho
    subst ho
    cases o with
    | error e => exact G
    | ok u =>
      have hl' : ∀ i ∈ live, i < s'.fresh := fun i hi => lt_of_lt_of_le (hl i hi) A.mono
      obtain ⟨g1, g2, g3⟩ := ihq s' sc' live (known_mono hk.2 A.mono) hn.2 hl' A.cur A.fresh G.2.1 G.1
      exact ⟨g1, g2, fun i hi => (g3 i hi).trans (G.2.2 i hi)⟩
  | tryExcept p q ihp ihq =>
    intro s sc live hk hn hl h1 h2 h3 h4
    have A := env_agree p s sc hk.1 h1 h2 (by rw [h3])
    have G := ihp s sc live hk.1 hn.1 hl h1 h2 h3 h4
    unfold EnvProg.run meaning
    rcases hr : p.run s with ⟨s', o⟩
    rcases hm : meaning p sc with ⟨sc', o'⟩
    rw [hr, hm] at A G
    have ho := A.out
    simp only at ho
    subst ho
    cases o with
    | ok u => exact G
    | error e =>
      have hl' : ∀ i ∈ live, i < s'.fresh := fun i hi => lt_of_lt_of_le (hl i hi) A.mono
      obtain ⟨g1, g2, g3⟩ := ihq s' sc' live (known_mono hk.2 A.mono) hn.2 hl' A.cur A.fresh G.2.1 G.1
      exact ⟨g1, g2, fun i hi => (g3 i hi).trans (G.2.2 i hi)⟩
  | withEnv x p ih =>
    intro s sc live hk hn hl h1 h2 h3 h4
    have A := env_agree p (envEnter x s) { sc with cur := some x, grad := x.grad } hk.2 rfl h2
      (by simp [h3, envEnter])
    have hlive : ∀ i ∈ x.id :: live, i < (envEnter x s).fresh := by
      intro i hi
      rcases List.mem_cons.mp hi with rfl | hi
      · exact hk.1
      · exact hl i hi
    have G := ih (envEnter x s) { sc with cur := some x, grad := x.grad } (x.id :: live) hk.2 hn.2 hlive
      rfl h2 h3 rfl
    unfold EnvProg.run meaning
    rcases hr : p.run (envEnter x s) with ⟨s', o⟩
    rcases hm : meaning p { sc with cur := some x, grad := x.grad } with ⟨sc', o'⟩
    rw [hr, hm] at A G
    obtain ⟨l, hl1, -⟩ := A.ext
    have hne : ∃ y r, s'.stack = y :: r := by
      have hsk : (envEnter x s).stack = x :: s.stack := rfl
      simp only [hsk] at hl1
      cases l with
      | nil => exact ⟨x, s.stack, by simpa using hl1⟩
      | cons y l => exact ⟨y, _, by simpa using hl1⟩
    obtain ⟨y, r, hy⟩ := hne
    have hx : s'.prev x.id = s.grad := by
      have := G.2.2 x.id (by simp)
      simp only at this
      rw [this]; simp [envEnter]
    simp only [envExit, hy]
    refine ⟨by rw [hx]; exact h4, G.2.1, fun i hi => ?_⟩
    have hxi : i ≠ x.id := by rintro rfl; exact hn.1 hi
    have := G.2.2 i (List.mem_cons_of_mem _ hi)
    simp only at this
    rw [this]; simp [envEnter, hxi]

/-- A network program never removes anything below the point where it started, whatever happens. -/
theorem net_ext (p : NetProg) : ∀ s : NetSt, ∃ l, (p.run s).1.stack = l ++ s.stack := by
  induction p with
  | skip => intro s; exact ⟨[], rfl⟩
  | raise e => intro s; exact ⟨[], rfl⟩
  | newComp n => intro s; unfold NetProg.run; split <;> exact ⟨[], by simp_all⟩
  | seq p q ihp ihq =>
    intro s
    obtain ⟨l, hl⟩ := ihp s
    unfold NetProg.run
    rcases hr : p.run s with ⟨s', o⟩
    rw [hr] at hl
    cases o with
    | error e => exact ⟨l, hl⟩
    | ok u =>
      obtain ⟨l', hl'⟩ := ihq s'
      exact ⟨l' ++ l, by simp only at hl ⊢; rw [hl', hl]; simp⟩
  | tryExcept p q ihp ihq =>
    intro s
    obtain ⟨l, hl⟩ := ihp s
    unfold NetProg.run
    rcases hr : p.run s with ⟨s', o⟩
    rw [hr] at hl
    cases o with
    | ok e => exact ⟨l, hl⟩
    | error u =>
      obtain ⟨l', hl'⟩ := ihq s'
      exact ⟨l' ++ l, by simp only at hl ⊢; rw [hl', hl]; simp⟩
  | withNet x p ih =>
    intro s
    obtain ⟨l, hl⟩ := ih { s with stack := x :: s.stack }
    unfold NetProg.run
    rcases hr : p.run { s with stack := x :: s.stack } with ⟨s', o⟩
    rw [hr] at hl
    simp only at hl ⊢
    cases o with
    | error e => exact ⟨l ++ [x], by simp [netExit, hl]⟩
    | ok u =>
      cases l with
      | nil => exact ⟨[], by simp [netExit, hl]⟩
      | cons y l => exact ⟨l ++ [x], by simp [netExit, hl]⟩

theorem net_noWith (p : NetProg) : ∀ s : NetSt, NoWith p →
    (p.run s).1.stack = s.stack ∧
      netMeaning p s.stack.head? s.added = ((p.run s).1.added, (p.run s).2) := by
  induction p with
  | skip => intro s _; exact ⟨rfl, rfl⟩
  | raise e => intro s _; exact ⟨rfl, rfl⟩
  | newComp n =>
    intro s _
    unfold NetProg.run netMeaning
    cases hst : s.stack <;> simp [hst]
  | withNet x p ih => intro s h; exact absurd h id
  | seq p q ihp ihq =>
    intro s h
    have A := ihp s h.1
    unfold NetProg.run netMeaning
    rcases hr : p.run s with ⟨s', o⟩
    rw [hr] at A
    rw [A.2]
    cases o with
    | error e => exact ⟨A.1, rfl⟩
    | ok u =>
      have B := ihq s' h.2
      simp only at A ⊢
      rw [A.1] at B
      exact B
  | tryExcept p q ihp ihq =>
    intro s h
    have A := ihp s h.1
    unfold NetProg.run netMeaning
    rcases hr : p.run s with ⟨s', o⟩
    rw [hr] at A
    rw [A.2]
    cases o with
    | ok e => exact ⟨A.1, rfl⟩
    | error u =>
      have B := ihq s' h.2
      simp only at A ⊢
      rw [A.1] at B
      exact B

theorem net_agree (p : NetProg) : ∀ s : NetSt, CatchInside p →
    netMeaning p s.stack.head? s.added = ((p.run s).1.added, (p.run s).2) ∧
      ((p.run s).2 = .ok () → (p.run s).1.stack = s.stack) := by
  induction p with
  | skip => intro s _; exact ⟨rfl, fun _ => rfl⟩
  | raise e => intro s _; exact ⟨rfl, fun _ => rfl⟩
  | newComp n =>
    intro s _
    unfold NetProg.run netMeaning
    cases hst : s.stack <;> simp [hst]
  | withNet x p ih =>
    intro s h
    have A := ih { s with stack := x :: s.stack } h
    unfold NetProg.run netMeaning
    rcases hr : p.run { s with stack := x :: s.stack } with ⟨s', o⟩
    rw [hr] at A
    simp only [List.head?_cons] at A ⊢
    rw [A.1]
    cases o with
    | error e => exact ⟨rfl, fun h => by simp [netExit] at h⟩
    | ok u => simp [netExit, A.2]
  | seq p q ihp ihq =>
    intro s h
    have A := ihp s h.1
    unfold NetProg.run netMeaning
    rcases hr : p.run s with ⟨s', o⟩
    rw [hr] at A
    rw [A.1]
    cases o with
    | error e => exact ⟨rfl, fun h => by simp at h⟩
    | ok u =>
      have B := ihq s' h.2
      have hst := A.2 rfl
      simp only at hst ⊢
      rw [hst] at B
      exact B
  | tryExcept p q ihp ihq =>
    intro s h
    have A := net_noWith p s h.1
    unfold NetProg.run netMeaning
    rcases hr : p.run s with ⟨s', o⟩
    rw [hr] at A
    rw [A.2]
    cases o with
    | ok e => exact ⟨rfl, fun _ => A.1⟩
    | error u =>
      have B := ihq s' h.2
      simp only at A ⊢
      rw [A.1] at B
      exact B

end PT
