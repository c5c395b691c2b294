import Verif.Spec.Accumulate
import Mathlib.Tactic.Linarith
import Mathlib.Tactic.NormNum

/-!
# C146: gradients accumulate
-/

namespace PT
open Spec

variable {E : Type}

/-- C146 in full: calls of networks only compute, so values and gradients are those that `backward`, `zero_grad` and `step` produce. -/
def C146_statement (S : Workshop E) : Prop := ∀ (b : Workbench E) (ops : List (TrainOp E)) (l : Learner),
  LearnsAll (learner b) ops l → learner (S.runAll b ops) = l

namespace Acc

theorem zeroGrad_mem {ps : List ℕ} {g : ℕ → ℝ} {i : ℕ} (h : i ∈ ps) : zeroGrad ps g i = 0 := if_pos h

theorem zeroGrad_not {ps : List ℕ} {g : ℕ → ℝ} {i : ℕ} (h : i ∉ ps) : zeroGrad ps g i = g i := if_neg h

theorem call_value (S : Workshop E) (b : Workbench E) (k e t) : (S.call b k e t).value = b.value := by
  unfold Workshop.call
  split <;> rfl

theorem call_grad_track (S : Workshop E) (b : Workbench E) (k e) : (S.call b k e true).grad = zeroGrad (S.params k) b.grad := by
  unfold Workshop.call
  rw [if_pos (.inr rfl)]

theorem call_grad_other {S : Workshop E} {b : Workbench E} {k e t} (h : b.env k ≠ some e) :
    (S.call b k e t).grad = zeroGrad (S.params k) b.grad := by
  unfold Workshop.call
  rw [if_pos (.inl h)]

theorem call_zero (S : Workshop E) (b : Workbench E) (k e t) {i : ℕ} (h : b.grad i = 0) : (S.call b k e t).grad i = 0 := by
  unfold Workshop.call
  split
  · show zeroGrad _ _ i = 0
    unfold zeroGrad
    split
    · rfl
    · exact h
  · exact h

theorem call_same (S : Workshop E) (b : Workbench E) (k e t) (h : ∀ i ∈ S.params k, b.grad i = 0) : (S.call b k e t).grad = b.grad := by
  unfold Workshop.call
  split
  · funext i
    show zeroGrad _ _ i = _
    by_cases hi : i ∈ S.params k
    · rw [zeroGrad_mem hi, h i hi]
    · exact zeroGrad_not hi
  · rfl

theorem unique_one {l l₁ l₂ : Learner} {op : TrainOp E} (h₁ : Learns l op l₁) (h₂ : Learns l op l₂) : l₁ = l₂ := by
  have ext : ∀ x y : Learner, x.value = y.value → x.grad = y.grad → x = y := by rintro ⟨_, _⟩ ⟨_, _⟩ rfl rfl; rfl
  cases op with
  | call => cases h₁; cases h₂; rfl
  | backward f =>
    obtain ⟨a, b⟩ : l₁.value = l.value ∧ ∀ i, l₁.grad i = l.grad i + f l.value i := by cases h₁; exact ⟨‹_›, ‹_›⟩
    obtain ⟨c, d⟩ : l₂.value = l.value ∧ ∀ i, l₂.grad i = l.grad i + f l.value i := by cases h₂; exact ⟨‹_›, ‹_›⟩
    exact ext _ _ (a.trans c.symm) (funext fun i => (b i).trans (d i).symm)
  | zero ps =>
    obtain ⟨a, b, c⟩ : l₁.value = l.value ∧ (∀ i ∈ ps, l₁.grad i = 0) ∧ ∀ i ∉ ps, l₁.grad i = l.grad i := by cases h₁; exact ⟨‹_›, ‹_›, ‹_›⟩
    obtain ⟨a', b', c'⟩ : l₂.value = l.value ∧ (∀ i ∈ ps, l₂.grad i = 0) ∧ ∀ i ∉ ps, l₂.grad i = l.grad i := by cases h₂; exact ⟨‹_›, ‹_›, ‹_›⟩
    refine ext _ _ (a.trans a'.symm) (funext fun i => ?_)
    by_cases hi : i ∈ ps
    · exact (b i hi).trans (b' i hi).symm
    · exact (c i hi).trans (c' i hi).symm
  | step r ps =>
    obtain ⟨a, b, c⟩ : l₁.grad = l.grad ∧ (∀ i ∈ ps, l₁.value i = l.value i - r * l.grad i) ∧ ∀ i ∉ ps, l₁.value i = l.value i := by
      cases h₁; exact ⟨‹_›, ‹_›, ‹_›⟩
    obtain ⟨a', b', c'⟩ : l₂.grad = l.grad ∧ (∀ i ∈ ps, l₂.value i = l.value i - r * l.grad i) ∧ ∀ i ∉ ps, l₂.value i = l.value i := by
      cases h₂; exact ⟨‹_›, ‹_›, ‹_›⟩
    refine ext _ _ (funext fun i => ?_) (a.trans a'.symm)
    by_cases hi : i ∈ ps
    · exact (b i hi).trans (b' i hi).symm
    · exact (c i hi).trans (c' i hi).symm

theorem unique {l l₁ l₂ : Learner} {ops : List (TrainOp E)} (h₁ : LearnsAll l ops l₁) (h₂ : LearnsAll l ops l₂) : l₁ = l₂ := by
  induction h₁ with
  | nil => cases h₂; rfl
  | cons a _ ih =>
    cases h₂ with
    | cons a' h' =>
      rw [unique_one a' a] at h'
      exact ih h'

theorem run_learns (S : Workshop E) (b : Workbench E) (op : TrainOp E)
    (h : ∀ k e t, op = .call k e t → (∀ i ∈ S.params k, b.grad i = 0) ∨ t = false ∧ b.env k = some e) :
    Learns (learner b) op (learner (S.run b op)) := by
  cases op with
  | call k e t =>
    have e1 : learner (S.run b (.call k e t)) = learner b := by
      show (⟨(S.call b k e t).value, (S.call b k e t).grad⟩ : Learner) = ⟨b.value, b.grad⟩
      rcases h k e t rfl with h | ⟨rfl, h₁⟩
      · rw [call_value, call_same S b k e t h]
      · have : S.call b k e false = b := by
          unfold Workshop.call
          rw [if_neg]
          rintro (h' | h')
          · exact h' h₁
          · cases h'
        rw [this]
    rw [e1]
    exact .call _ _ _ _
  | backward f => exact .backward _ _ _ rfl fun _ => rfl
  | zero ps => exact .zero _ _ _ rfl (fun i hi => zeroGrad_mem hi) fun i hi => zeroGrad_not hi
  | step r ps => exact .step _ _ _ _ rfl (fun i hi => if_pos hi) fun i hi => if_neg hi

theorem call_env (S : Workshop E) (b : Workbench E) (k e t) {j : ℕ} (hj : j ≠ k) : (S.call b k e t).env j = b.env j := by
  unfold Workshop.call
  split
  · show (if S.ends k e b.value = true then Function.update b.env k (some e) else b.env) j = _
    split
    · exact Function.update_of_ne hj _ _
    · rfl
  · rfl

theorem call_env_self (S : Workshop E) (b : Workbench E) (k e t) (h : S.ends k e b.value = true) : (S.call b k e t).env k = some e := by
  unfold Workshop.call
  rw [if_pos h]
  split
  · exact Function.update_self _ _ _
  · next hc =>
    push Not at hc
    exact hc.1

theorem tidy (S : Workshop E) {dirty : ℕ → Prop} {last : ℕ → Option E} {ops : List (TrainOp E)} (h : Tidy S dirty last ops) :
    ∀ b : Workbench E, (∀ i, ¬ dirty i → b.grad i = 0) → (∀ k e, last k = some e → b.env k = some e) →
      LearnsAll (learner b) ops (learner (S.runAll b ops)) := by
  induction h with
  | nil => intro b _ _; exact .nil _
  | @call dirty last k e t ops hp he _ ih =>
    intro b hd hl
    refine .cons (run_learns S b _ ?_) (ih _ ?_ ?_)
    · intro k' e' t' h'
      cases h'
      exact .inl fun i hi => hd i (hp i hi)
    · intro i hi
      exact call_zero S b k e t (hd i hi)
    · intro k' e' h'
      by_cases hk : k' = k
      · subst hk
        rw [Function.update_self] at h'
        cases h'
        exact call_env_self S b _ _ _ (he _)
      · rw [Function.update_of_ne hk] at h'
        exact (call_env S b k e t hk).trans (hl _ _ h')
  | @attempt dirty last k e t ops hp _ ih =>
    intro b hd hl
    refine .cons (run_learns S b _ ?_) (ih _ ?_ ?_)
    · intro k' e' t' h'
      cases h'
      exact .inl fun i hi => hd i (hp i hi)
    · intro i hi
      exact call_zero S b k e t (hd i hi)
    · intro k' e' h'
      by_cases hk : k' = k
      · subst hk
        rw [Function.update_self] at h'
        cases h'
      · rw [Function.update_of_ne hk] at h'
        exact (call_env S b k e t hk).trans (hl _ _ h')
  | @look dirty last k e ops hk _ ih =>
    intro b hd hl
    have hb : S.run b (.call k e false) = b := by
      show S.call b k e false = b
      unfold Workshop.call
      rw [if_neg]
      rintro (h' | h')
      · exact h' (hl _ _ hk)
      · cases h'
    refine .cons (run_learns S b _ ?_) ?_
    · intro k' e' t' h'
      cases h'
      exact .inr ⟨rfl, hl _ _ hk⟩
    · show LearnsAll (learner (S.run b (.call k e false))) ops (learner (S.runAll (S.run b (.call k e false)) ops))
      rw [hb]
      exact ih b hd hl
  | @backward dirty last f ops _ ih =>
    intro b hd hl
    refine .cons (run_learns S b _ (by intro _ _ _ h'; cases h')) (ih _ ?_ hl)
    intro i hi
    push Not at hi
    show b.grad i + f b.value i = 0
    rw [hd i hi.1, hi.2, add_zero]
  | @zero dirty last ps ops _ ih =>
    intro b hd hl
    refine .cons (run_learns S b _ (by intro _ _ _ h'; cases h')) (ih _ ?_ hl)
    intro i hi
    show zeroGrad ps b.grad i = 0
    by_cases hp : i ∈ ps
    · exact zeroGrad_mem hp
    · rw [zeroGrad_not hp]
      exact hd i fun h => hi ⟨h, hp⟩
  | @step dirty last r ps ops _ ih =>
    intro b hd hl
    exact .cons (run_learns S b _ (by intro _ _ _ h'; cases h')) (ih _ hd hl)

end Acc

/-- C146 is refuted by every network with a parameter: of two passes, forward and backward, only the second counts. -/
theorem C146_violation (S : Workshop E) (e : E) (k i : ℕ) (hi : i ∈ S.params k) : ¬ C146_statement S := by
  intro H
  have h := H ⟨fun _ => 0, fun _ => 0, fun _ => none⟩ [.call k e true, .backward fun _ _ => 1, .call k e true, .backward fun _ _ => 1]
    ⟨fun _ => 0, fun _ => 2⟩
    (.cons (.call _ _ _ _) (.cons (.backward _ _ ⟨fun _ => 0, fun _ => 1⟩ rfl (by intro _; show (1 : ℝ) = 0 + 1; norm_num))
      (.cons (.call _ _ _ _) (.cons (.backward _ _ ⟨fun _ => 0, fun _ => 2⟩ rfl (by intro _; show (2 : ℝ) = 1 + 1; norm_num)) (.nil _)))))
  have h2 := congrFun (congrArg Learner.grad h) i
  have h3 : (S.runAll ⟨fun _ => 0, fun _ => 0, fun _ => none⟩
      [.call k e true, .backward fun _ _ => 1, .call k e true, .backward fun _ _ => 1]).grad i = 1 := by
    show (S.call _ k e true).grad i + 1 = 1
    rw [Acc.call_grad_track, Acc.zeroGrad_mem hi, zero_add]
  have h4 : (1 : ℝ) = 2 := h3.symm.trans h2
  norm_num at h4

/-- C146, another violation: looking at the network in another environment, even without gradients, between `backward` and `step` makes the step
void, whatever the loss. -/
theorem C146_validation_violation (S : Workshop E) (b : Workbench E) (k : ℕ) (e e' : E) (f : (ℕ → ℝ) → ℕ → ℝ) (r : ℝ) (he : e ≠ e')
    (h : S.ends k e b.value = true) {i : ℕ} (hi : i ∈ S.params k) :
    (S.runAll b [.zero (S.params k), .call k e true, .backward f, .call k e' false, .step r (S.params k)]).value i = b.value i := by
  obtain ⟨b1, hb1⟩ : ∃ b1, b1 = S.call { b with grad := zeroGrad (S.params k) b.grad } k e true := ⟨_, rfl⟩
  obtain ⟨b2, hb2⟩ : ∃ b2 : Workbench E, b2 = { b1 with grad := fun i => b1.grad i + f b1.value i } := ⟨_, rfl⟩
  have hrun : S.runAll b [.zero (S.params k), .call k e true, .backward f, .call k e' false, .step r (S.params k)] =
      S.run (S.call b2 k e' false) (.step r (S.params k)) := by
    rw [hb2, hb1]
    rfl
  rw [hrun]
  show (if i ∈ S.params k then (S.call b2 k e' false).value i - r * (S.call b2 k e' false).grad i else (S.call b2 k e' false).value i) = b.value i
  have henv : b2.env k ≠ some e' := by
    have h1 : b1.env k = some e := by rw [hb1]; exact Acc.call_env_self S _ k e true h
    rw [hb2]
    show b1.env k ≠ some e'
    rw [h1]
    exact fun h' => he (Option.some.inj h')
  rw [if_pos hi, Acc.call_grad_other henv, Acc.zeroGrad_mem hi, Acc.call_value, mul_zero, sub_zero, hb2]
  show b1.value i = b.value i
  rw [hb1, Acc.call_value]

/-- C146, the part that holds: programs that call networks only while the gradients of their parameters are zero, or once more in the same environment
without gradients, train as torch documents. -/
theorem C146_tidy_partial (S : Workshop E) (b : Workbench E) (ops : List (TrainOp E)) (h : Tidy S (fun i => b.grad i ≠ 0) b.env ops) (l : Learner)
    (hl : LearnsAll (learner b) ops l) : learner (S.runAll b ops) = l :=
  Acc.unique (Acc.tidy S h b (fun i hi => by push Not at hi; exact hi) fun _ _ h => h) hl

/-- C146: the training loop of the examples is gradient descent, whichever networks are called in whichever environments to compute the loss of an
epoch. -/
theorem C146_descent (S : Workshop E) (rate : ℝ) (ps : List ℕ) (xs : List (Epoch E)) (b : Workbench E) :
    (S.runAll b (xs.flatMap (epochOps rate ps))).value = xs.foldl (descend rate ps) b.value := by
  induction xs generalizing b with
  | nil => rfl
  | cons x xs ih =>
    rw [List.flatMap_cons]
    unfold Workshop.runAll at ih ⊢
    rw [List.foldl_append, ih, List.foldl_cons]
    congr 1
    have calls : ∀ (cs : List (ℕ × E × Bool)) (b : Workbench E), (∀ i ∈ ps, b.grad i = 0) →
        ((cs.map (fun c => TrainOp.call c.1 c.2.1 c.2.2)).foldl S.run b).value = b.value ∧
          ∀ i ∈ ps, ((cs.map (fun c => TrainOp.call c.1 c.2.1 c.2.2)).foldl S.run b).grad i = 0 := by
      intro cs
      induction cs with
      | nil => intro b h; exact ⟨rfl, h⟩
      | cons c cs ih =>
        intro b h
        obtain ⟨h1, h2⟩ := ih (S.call b c.1 c.2.1 c.2.2) fun i hi => Acc.call_zero S b _ _ _ (h i hi)
        exact ⟨h1.trans (Acc.call_value S b _ _ _), h2⟩
    unfold epochOps
    rw [List.cons_append, List.foldl_cons, List.foldl_append]
    obtain ⟨h1, h2⟩ := calls x.calls (S.run b (.zero ps)) fun i hi => Acc.zeroGrad_mem hi
    generalize (x.calls.map (fun c => TrainOp.call c.1 c.2.1 c.2.2)).foldl S.run (S.run b (.zero ps)) = b1 at h1 h2
    have hv : b1.value = b.value := h1
    funext i
    show (if i ∈ ps then b1.value i - rate * (b1.grad i + x.slope b1.value i) else b1.value i) = _
    unfold descend
    by_cases hi : i ∈ ps
    · rw [if_pos hi, if_pos hi, h2 i hi, zero_add, hv]
    · rw [if_neg hi, if_neg hi, hv]

/-- C146: what is left of the gradients of several passes is that of the last one. -/
theorem C146_last (S : Workshop E) (b : Workbench E) (k : ℕ) (e : E) (fs : List ((ℕ → ℝ) → ℕ → ℝ)) (f : (ℕ → ℝ) → ℕ → ℝ) {i : ℕ}
    (hi : i ∈ S.params k) :
    (S.runAll b ((fs ++ [f]).flatMap fun f => [.call k e true, .backward f])).grad i = f b.value i := by
  have hv : ∀ (fs : List ((ℕ → ℝ) → ℕ → ℝ)) (b : Workbench E),
      (S.runAll b (fs.flatMap fun f => [.call k e true, .backward f])).value = b.value := by
    intro fs
    induction fs with
    | nil => intro b; rfl
    | cons g fs ih =>
      intro b
      exact (ih _).trans (Acc.call_value S b k e true)
  rw [List.flatMap_append]
  unfold Workshop.runAll at hv ⊢
  rw [List.foldl_append]
  have h1 := hv fs b
  generalize (fs.flatMap fun f => [TrainOp.call k e true, .backward f]).foldl S.run b = b1 at h1
  show (S.call b1 k e true).grad i + f (S.call b1 k e true).value i = _
  rw [Acc.call_grad_track, Acc.zeroGrad_mem hi, zero_add, Acc.call_value, h1]

/-- Not vacuous: two networks that share parameter 1, called in two environments, with a look at the trained network before the step. -/
example (f : (ℕ → ℝ) → ℕ → ℝ) : Tidy (⟨fun k => [k, 1], fun _ _ _ => true⟩ : Workshop Bool) (fun i => i = 0 ∨ i = 1) (fun _ => none)
    [.zero [0, 1, 2], .call 0 true true, .call 2 false true, .backward f, .call 0 true false, .step 1 [0, 1, 2]] := by
  refine .zero (.call ?_ (fun _ => rfl) (.call ?_ (fun _ => rfl) (.backward (.look ?_ (.step (.nil _ _))))))
  · intro i hi h
    exact h.2 (by simp only [List.mem_cons, List.not_mem_nil, or_false] at hi ⊢; omega)
  · intro i hi h
    exact h.2 (by simp only [List.mem_cons, List.not_mem_nil, or_false] at hi ⊢; omega)
  · rw [Function.update_of_ne (by norm_num), Function.update_self]

/-- An epoch that calls one network twice, in different environments, for a loss with slope 2: the value moves by twice the learning rate. -/
example (S : Workshop Bool) (b : Workbench Bool) : (S.runAll b (epochOps (1 / 10) [5] ⟨[(0, true, true), (0, false, true)], fun _ _ => 2⟩)).value 5 =
    b.value 5 - 1 / 10 * 2 := by
  have h := C146_descent S (1 / 10) [5] [⟨[(0, true, true), (0, false, true)], fun _ _ => 2⟩] b
  rw [List.flatMap_singleton] at h
  rw [h]
  rfl

/-- Without the reset in `forward`, three passes with slope 1 would add up to 3; the gradient is 1. -/
example (b : Workbench Unit) : ((⟨fun _ => [7], fun _ _ _ => true⟩ : Workshop Unit).runAll b
    ((([fun _ _ => 1, fun _ _ => 1] : List ((ℕ → ℝ) → ℕ → ℝ)) ++ [fun _ _ => 1]).flatMap fun f => [.call 0 () true, .backward f])).grad 7 = 1 :=
  C146_last _ b 0 () [fun _ _ => 1, fun _ _ => 1] (fun _ _ => 1) (by simp)

end PT
