import Verif.Model.Devices
import Mathlib.Tactic.SplitIfs

/-!
# C88: The device of a module is where its tensors are
-/

namespace PT

namespace Spec

/-- The objects and dictionaries of a module and all its submodules. -/
def parts : Submodules → List (ℕ × ℕ)
  | .nil => []
  | .cons o st children rest => (o, st) :: (parts children ++ parts rest)

/-- A module and all its submodules say that they are at a place, and their tensors are there. -/
def LivesAt (p : Place) (m : Submodules) (s : Devices) : Prop :=
  ∀ x ∈ parts m, s.attr x.1 = some p ∧ s.tensor x.2 = p

/-- The attribute of a module and all its submodules says where their tensors are. -/
def Truthful (m : Submodules) (s : Devices) : Prop := ∀ x ∈ parts m, s.attr x.1 = some (s.tensor x.2)

end Spec
open Spec

/-! ### What `to` changes -/

theorem setTensor_attr (s : Devices) (st : ℕ) (d : Option Place) : (s.setTensor st d).attr = s.attr := by
  cases d <;> rfl

theorem torchTo_attr (d : Option Place) : ∀ (m : Submodules) (s : Devices), (torchTo d m s).attr = s.attr
  | .nil, _ => rfl
  | .cons _ _ c r, s => by rw [torchTo, torchTo_attr d r, setTensor_attr, torchTo_attr d c]

theorem setTensor_tensor (s : Devices) (st : ℕ) (p : Place) (x : ℕ) :
    (s.setTensor st (some p)).tensor x = if x = st then p else s.tensor x := rfl

theorem torchTo_tensor (p : Place) : ∀ (m : Submodules) (s : Devices) (x : ℕ),
    (torchTo (some p) m s).tensor x = if x ∈ (parts m).map Prod.snd then p else s.tensor x
  | .nil, s, x => by simp [torchTo, parts]
  | .cons o st c r, s, x => by
    rw [torchTo, torchTo_tensor p r, setTensor_tensor, torchTo_tensor p c]
    simp only [parts, List.map_cons, List.map_append, List.mem_cons, List.mem_append]
    by_cases h1 : x ∈ (parts r).map Prod.snd <;> by_cases h2 : x = st <;> by_cases h3 : x ∈ (parts c).map Prod.snd <;>
      simp [h1, h2, h3]

theorem torchTo_none : ∀ (m : Submodules) (s : Devices), torchTo none m s = s
  | .nil, _ => rfl
  | .cons _ _ c r, s => by rw [torchTo, torchTo_none c, Devices.setTensor, torchTo_none r]

theorem setAttr_attr (s : Devices) (o : ℕ) (d : Option Place) (x : ℕ) :
    (s.setAttr o d).attr x = if x = o then d else s.attr x := rfl

theorem moduleTo_attr (d : Option Place) : ∀ (m : Submodules) (s : Devices) (x : ℕ),
    (moduleTo d m s).attr x = if x ∈ (parts m).map Prod.fst then d else s.attr x
  | .nil, s, x => by simp [moduleTo, parts]
  | .cons o st c r, s, x => by
    rw [moduleTo, moduleTo_attr d r, setAttr_attr, moduleTo_attr d c, torchTo_attr]
    simp only [parts, List.map_cons, List.map_append, List.mem_cons, List.mem_append]
    by_cases h1 : x ∈ (parts r).map Prod.fst <;> by_cases h2 : x = o <;> by_cases h3 : x ∈ (parts c).map Prod.fst <;>
      simp [h1, h2, h3]

theorem moduleTo_tensor (p : Place) : ∀ (m : Submodules) (s : Devices) (x : ℕ),
    (moduleTo (some p) m s).tensor x = if x ∈ (parts m).map Prod.snd then p else s.tensor x
  | .nil, s, x => by simp [moduleTo, parts]
  | .cons o st c r, s, x => by
    rw [moduleTo, moduleTo_tensor p r]
    show (if _ then p else (moduleTo (some p) c _).tensor x) = _
    rw [moduleTo_tensor p c, torchTo_tensor]
    simp only [parts, List.map_cons, List.map_append, List.mem_cons, List.mem_append, List.append_nil]
    by_cases h1 : x ∈ (parts r).map Prod.snd <;> by_cases h2 : x = st <;> by_cases h3 : x ∈ (parts c).map Prod.snd <;>
      simp [h1, h2, h3]

theorem moduleTo_none_tensor : ∀ (m : Submodules) (s : Devices), (moduleTo none m s).tensor = s.tensor
  | .nil, _ => rfl
  | .cons _ _ c r, s => by
    rw [moduleTo, moduleTo_none_tensor r]
    show (moduleTo none c _).tensor = _
    rw [moduleTo_none_tensor c, torchTo_none]

/-- C88. Moving a module to a device puts all tensors of it and of its submodules there, and all of them know. Nothing else
moves. -/
theorem C88_to_partial (p : Place) (m : Submodules) (s : Devices) : LivesAt p m (moduleTo (some p) m s) ∧
    (∀ o, (∀ x ∈ parts m, x.1 ≠ o) → (moduleTo (some p) m s).attr o = s.attr o) ∧
    (∀ st, (∀ x ∈ parts m, x.2 ≠ st) → (moduleTo (some p) m s).tensor st = s.tensor st) := by
  refine ⟨fun x hx => ⟨?_, ?_⟩, fun o ho => ?_, fun st hst => ?_⟩
  · rw [moduleTo_attr, if_pos (List.mem_map_of_mem hx)]
  · rw [moduleTo_tensor, if_pos (List.mem_map_of_mem hx)]
  · rw [moduleTo_attr, if_neg]
    rintro h
    obtain ⟨x, hx, rfl⟩ := List.mem_map.mp h
    exact ho x hx rfl
  · rw [moduleTo_tensor, if_neg]
    rintro h
    obtain ⟨x, hx, rfl⟩ := List.mem_map.mp h
    exact hst x hx rfl

/-- C88. `cpu()` and `cuda(i)` are moves to the cpu and to that gpu; `cuda()` to the first one. -/
theorem C88_cuda (m : Submodules) (s : Devices) : LivesAt .cpu m (moduleCpu m s) ∧
    LivesAt (.cuda 0) m (moduleCuda none m s) ∧ ∀ i, LivesAt (.cuda i) m (moduleCuda (some i) m s) :=
  ⟨(C88_to_partial _ m s).1, (C88_to_partial _ m s).1, fun _ => (C88_to_partial _ m s).1⟩

/-- C88 is violated by every `to` without a device, such as `to(torch.float64)`: no tensor moves, but the module has no
device any more; `is_cuda` and `terminate` raise AttributeError. -/
theorem C88_dtype_violation (o st : ℕ) (children : Submodules) (s : Devices) :
    (moduleTo none (.single o st children) s).tensor = s.tensor ∧
    (∀ x ∈ parts (.single o st children), (moduleTo none (.single o st children) s).attr x.1 = none) ∧
    ¬Truthful (.single o st children) (moduleTo none (.single o st children) s) ∧
    isCuda (moduleTo none (.single o st children) s) o = .error .attributeError ∧
    ∀ terms copied obj store, terminateOn o st children terms copied obj store
      (moduleTo none (.single o st children) s) = .error .attributeError := by
  have h : ∀ x ∈ parts (.single o st children), (moduleTo none (.single o st children) s).attr x.1 = none := fun x hx => by
    rw [moduleTo_attr, if_pos (List.mem_map_of_mem hx)]
  have h0 := h (o, st) (by simp [parts, Submodules.single])
  refine ⟨moduleTo_none_tensor _ s, h, fun ht => ?_, ?_, fun _ _ _ _ => ?_⟩
  · have := ht (o, st) (by simp [parts, Submodules.single])
    rw [h0] at this
    cases this
  · unfold isCuda
    rw [h0]
  · unfold terminateOn isCuda
    rw [h0]

/-- C88 is violated by `terminate` of every network on a gpu: the terminated network says that it is on the cpu (and its own
buffers are), while the network in it is on the gpu. -/
theorem C88_terminate_violation (o st : ℕ) (children terms : Submodules) (copied obj store i : ℕ) (s : Devices)
    (hs : LivesAt (.cuda i) (.single o st children) s) (hne : copied ≠ obj) (hst : st ≠ store) :
    ∃ r, terminateOn o st children terms copied obj store s = .ok r ∧ isCuda r.2 obj = .ok false ∧
      isCuda r.2 copied = .ok true ∧ ∀ p, ¬LivesAt p r.1 r.2 := by
  obtain ⟨h1, h2⟩ := hs (o, st) (by simp [parts, Submodules.single])
  have hg : isCuda s o = .ok true := by unfold isCuda; rw [h1]
  unfold terminateOn
  rw [hg]
  refine ⟨_, rfl, ?_, ?_, ?_⟩
  · simp [isCuda, setTensor_attr, setAttr_attr]
  · simp [isCuda, setTensor_attr, setAttr_attr, hne, h1]
  · intro p hp
    have a := (hp (obj, store) (by simp [parts, Submodules.single])).1
    have b := (hp (copied, st) (by simp [parts, Submodules.single])).1
    simp only [setTensor_attr, setAttr_attr, if_true] at a b
    rw [if_neg hne] at b
    simp only [h1, Option.some.injEq] at a b
    rw [← a] at b
    cases b

theorem parts_append : ∀ m m' : Submodules, ∀ x, x ∈ parts (m.append m') ↔ x ∈ parts m ∨ x ∈ parts m'
  | .nil, m', x => by simp [Submodules.append, parts]
  | .cons o st c r, m', x => by
    simp only [Submodules.append, parts, List.mem_cons, List.mem_append, parts_append r m' x]
    tauto

/-- C88. On a gpu, `terminate` moves the terms to the first gpu, where they say they are; the network in it stays where it is. -/
theorem C88_terminate_terms (o st : ℕ) (children terms : Submodules) (copied obj store i : ℕ) (s : Devices)
    (hs : LivesAt (.cuda i) (.single o st children) s) (ht : ∀ x ∈ parts terms, x.1 ≠ copied ∧ x.1 ≠ obj ∧ x.2 ≠ store)
    (hn : ∀ x ∈ parts (.single o st children), x.1 ≠ copied ∧ x.1 ≠ obj ∧ x.2 ≠ store ∧ ∀ y ∈ parts terms, y.1 ≠ x.1 ∧ y.2 ≠ x.2) :
    ∃ r, terminateOn o st children terms copied obj store s = .ok r ∧ LivesAt (.cuda 0) terms r.2 ∧
      LivesAt (.cuda i) (.single o st children) r.2 := by
  obtain ⟨h1, -⟩ := hs (o, st) (by simp [parts, Submodules.single])
  have hg : isCuda s o = .ok true := by unfold isCuda; rw [h1]
  unfold terminateOn
  rw [hg]
  obtain ⟨m1, m2, m3⟩ := C88_to_partial (.cuda 0) terms s
  have hte : ∀ (s' : Devices) (a b : ℕ) (p q : Option Place) (z : ℕ), ((s'.setAttr a p).setAttr b q).tensor z = s'.tensor z :=
    fun _ _ _ _ _ _ => rfl
  refine ⟨_, rfl, fun x hx => ?_, fun x hx => ?_⟩
  · obtain ⟨a1, a2, a3⟩ := ht x hx
    have := m1 x hx
    simp only [setTensor_attr, setAttr_attr, setTensor_tensor, hte, if_true, a1, a2, a3, if_false, moduleCuda]
    exact this
  · obtain ⟨a1, a2, a3, a4⟩ := hn x hx
    simp only [setTensor_attr, setAttr_attr, setTensor_tensor, hte, if_true, a1, a2, a3, if_false, moduleCuda]
    rw [m2 x.1 fun y hy => (a4 y hy).1, m3 x.2 fun y hy => (a4 y hy).2]
    exact hs x hx

/-- C88. On the cpu, terminated networks are where they say if the network and the terms are. -/
theorem C88_terminate_partial (o st : ℕ) (children terms : Submodules) (copied obj store : ℕ) (s : Devices)
    (hs : LivesAt .cpu (.single o st children) s) (ht : LivesAt .cpu terms s) :
    ∃ r, terminateOn o st children terms copied obj store s = .ok r ∧ LivesAt .cpu r.1 r.2 := by
  obtain ⟨h1, h2⟩ := hs (o, st) (by simp [parts, Submodules.single])
  have hg : isCuda s o = .ok false := by unfold isCuda; rw [h1]
  unfold terminateOn
  rw [hg]
  refine ⟨_, rfl, ?_⟩
  intro x hx
  have key : x = (obj, store) ∨ x = (copied, st) ∨ x ∈ parts (.single o st children) ∨ x ∈ parts terms := by
    simp only [Submodules.single, parts, List.mem_cons, List.mem_append, parts_append, List.append_nil] at hx ⊢
    tauto
  simp only [setTensor_attr, setAttr_attr, setTensor_tensor, Bool.false_eq_true, if_false]
  have hte : ∀ z, (((s.setAttr copied (s.attr o)).setAttr obj (some .cpu)).tensor z) = s.tensor z := fun _ => rfl
  have hx' : (x.1 = obj ∨ x.1 = copied ∨ s.attr x.1 = some .cpu) ∧ (x.2 = store ∨ s.tensor x.2 = .cpu) := by
    rcases key with rfl | rfl | k | k
    · exact ⟨Or.inl rfl, Or.inl rfl⟩
    · exact ⟨Or.inr (Or.inl rfl), Or.inr h2⟩
    · exact ⟨Or.inr (Or.inr (hs x k).1), Or.inr (hs x k).2⟩
    · exact ⟨Or.inr (Or.inr (ht x k).1), Or.inr (ht x k).2⟩
  constructor
  · by_cases ho : x.1 = obj
    · rw [if_pos ho]
    · rw [if_neg ho]
      by_cases hc : x.1 = copied
      · rw [if_pos hc, h1]
      · rw [if_neg hc]
        rcases hx'.1 with h | h | h
        · exact absurd h ho
        · exact absurd h hc
        · exact h
  · rw [hte]
    by_cases hst : x.2 = store
    · rw [if_pos hst]
    · rw [if_neg hst]
      exact hx'.2.resolve_left hst

/-- C88. Reck, Clements and ring networks on any device, terminated with terms on any devices, are on that device. -/
theorem C88_mesh (o st : ℕ) (children terms : Submodules) (copied obj store : ℕ) (s : Devices) (p : Place)
    (hs : s.attr o = some p) :
    ∃ r, terminateMeshOn o st children terms copied obj store s = .ok r ∧ LivesAt p r.1 r.2 := by
  unfold terminateMeshOn terminateOn isCuda
  rw [hs]
  cases p with
  | cpu => exact ⟨_, rfl, (C88_to_partial _ _ _).1⟩
  | cuda i => exact ⟨_, rfl, (C88_to_partial _ _ _).1⟩

/-! ### A network of a waveguide and a coupler -/

/-- A network (object 0) of two components (objects 1 and 2). -/
def exNet : Submodules := .cons 1 1 .nil (.cons 2 2 .nil .nil)

/-- New modules are on the cpu. -/
def exFresh : Devices := ⟨fun _ => some .cpu, fun _ => .cpu⟩

/-- Moved to the second gpu, it lives there, and the object 7 stays. -/
example : LivesAt (.cuda 1) (.single 0 0 exNet) (moduleCuda (some 1) (.single 0 0 exNet) exFresh) ∧
    (moduleCuda (some 1) (.single 0 0 exNet) exFresh).tensor 7 = .cpu ∧ (parts (.single 0 0 exNet)).length = 3 :=
  ⟨(C88_cuda _ _).2.2 1, by decide +kernel, by decide +kernel⟩

/-- Terminated there with one term (object 3), the network (object 11) is on the cpu, its copy (object 10) on the second gpu
and its term on the first gpu. -/
example : ∃ r, terminateOn 0 0 exNet (.single 3 3 .nil) 10 11 11 (moduleCuda (some 1) (.single 0 0 exNet) exFresh) = .ok r ∧
    r.2.attr 11 = some .cpu ∧ r.2.attr 10 = some (.cuda 1) ∧ r.2.tensor 3 = .cuda 0 :=
  ⟨_, rfl, by decide +kernel, by decide +kernel, by decide +kernel⟩

/-- If it were a Reck network, all would be on the second gpu. -/
example : ∃ r, terminateMeshOn 0 0 exNet (.single 3 3 .nil) 10 11 11 (moduleCuda (some 1) (.single 0 0 exNet) exFresh) = .ok r ∧
    LivesAt (.cuda 1) r.1 r.2 :=
  C88_mesh 0 0 exNet (.single 3 3 .nil) 10 11 11 _ (.cuda 1) (by decide +kernel)

/-- After `to(torch.float64)` it cannot be terminated. -/
example : terminateOn 0 0 exNet (.single 3 3 .nil) 10 11 11 (moduleTo none (.single 0 0 exNet) exFresh) = .error .attributeError :=
  (C88_dtype_violation 0 0 exNet exFresh).2.2.2.2 _ _ _ _

/-- On the cpu it can. -/
example : ∃ r, terminateOn 0 0 exNet (.single 3 3 .nil) 10 11 11 exFresh = .ok r ∧ LivesAt .cpu r.1 r.2 :=
  C88_terminate_partial 0 0 exNet (.single 3 3 .nil) 10 11 11 exFresh (fun _ _ => ⟨rfl, rfl⟩) (fun _ _ => ⟨rfl, rfl⟩)

/-- The terms of a network on the second gpu are on the first one. -/
example : ∃ r, terminateOn 0 0 exNet (.single 30 30 .nil) 100 101 101 (moduleCuda (some 1) (.single 0 0 exNet) exFresh) = .ok r ∧
    LivesAt (.cuda 0) (.single 30 30 .nil) r.2 ∧ LivesAt (.cuda 1) (.single 0 0 exNet) r.2 :=
  C88_terminate_terms 0 0 exNet (.single 30 30 .nil) 100 101 101 1 _ ((C88_cuda _ _).2.2 1) (by decide) (by decide)

end PT
