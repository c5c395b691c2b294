import Verif.Props.Topology
import Mathlib.Data.List.Sort

/-!
# C92: components defined by the user are checked
-/

namespace PT

/-- Every port is numbered once. -/
def Numbered (c : Comp) : Prop := c.portOrder.Perm (List.range c.n)

/-- Every port is at most one of source, detector and active. -/
def OneRole (c : Comp) : Prop := ∀ i < c.n,
  ¬(c.src[i]? = some true ∧ c.det[i]? = some true) ∧ ¬(c.src[i]? = some true ∧ c.act[i]? = some true) ∧
    ¬(c.det[i]? = some true ∧ c.act[i]? = some true)

/-- A component that is no network is active at all its ports or at none. -/
def AllOrNone (c : Comp) : Prop := c.isNet = true ∨ (∀ i < c.n, c.act[i]? = some true) ∨ ∀ i < c.n, c.act[i]? = some false

/-- The buffers have one entry for each port, as `torch.zeros(num_ports)` has. -/
def Sized (c : Comp) : Prop := c.portOrder.length = c.n ∧ c.src.length = c.n ∧ c.det.length = c.n ∧ c.act.length = c.n

/-- **C92**: of the components with at least one port, exactly those are accepted in which each port has one number
and at most one role and which are active everywhere or nowhere; the others are rejected with ValueError. -/
def C92 : Prop := ∀ c : Comp, 0 < c.n → Sized c →
  (Numbered c ∧ OneRole c ∧ AllOrNone c → c.check = .ok ()) ∧
    (¬(Numbered c ∧ OneRole c ∧ AllOrNone c) → c.check = .error .valueError)

theorem overlap_iff (a b : List Bool) : overlap a b = true ↔ ∃ i : ℕ, a[i]? = some true ∧ b[i]? = some true := by
  unfold overlap
  induction a generalizing b with
  | nil => simp
  | cons x a ih =>
    cases b with
    | nil => simp
    | cons y b =>
      rw [List.zipWith_cons_cons, List.any_cons, Bool.or_eq_true, ih]
      constructor
      · rintro (h | ⟨i, h⟩)
        · exact ⟨0, by simpa using h⟩
        · exact ⟨i + 1, by simpa using h⟩
      · rintro ⟨i, h⟩
        cases i with
        | zero => exact .inl (by simpa using h)
        | succ i => exact .inr ⟨i, by simpa using h⟩

theorem overlap_false {a b : List Bool} {n : ℕ} (ha : a.length = n)
    (h : ∀ i < n, ¬(a[i]? = some true ∧ b[i]? = some true)) : overlap a b = false := by
  rw [Bool.eq_false_iff]
  intro hc
  obtain ⟨i, h1, h2⟩ := (overlap_iff a b).1 hc
  have hi : i < n := by
    by_contra hi
    rw [List.getElem?_eq_none (by omega)] at h1
    cases h1
  exact h i hi ⟨h1, h2⟩

theorem sorted_check {l : List ℕ} {n : ℕ} (hn : 0 < n) (h : l.Perm (List.range n)) :
    ((List.zipWith (fun a b => decide (a ≠ b)) (l.insertionSort (· ≤ ·)) (List.range n)).all id) = false := by
  have e : l.insertionSort (· ≤ ·) = List.range n := by
    refine List.Perm.eq_of_pairwise' (r := (· ≤ ·)) ?_ ?_ ((List.perm_insertionSort _ _).trans h)
    · exact List.pairwise_insertionSort _ _
    · exact List.pairwise_le_range
  rw [e]
  cases n with
  | zero => omega
  | succ n => simp [List.range_succ_eq_map]

theorem any_iff_getElem? (l : List Bool) : l.any id = true ↔ ∃ i : ℕ, l[i]? = some true := by
  rw [List.any_eq_true]
  constructor
  · rintro ⟨x, hx, h⟩
    obtain ⟨i, hi⟩ := List.getElem?_of_mem hx
    exact ⟨i, by rw [hi]; simpa using h⟩
  · rintro ⟨i, hi⟩
    exact ⟨true, List.mem_of_getElem? hi, rfl⟩

theorem all_iff_getElem? (l : List Bool) : l.all id = true ↔ ∀ i < l.length, l[i]? = some true := by
  rw [List.all_eq_true]
  constructor
  · intro h i hi
    rw [List.getElem?_eq_getElem hi]
    exact congrArg _ (h _ (List.getElem_mem hi))
  · intro h x hx
    obtain ⟨i, hi⟩ := List.getElem?_of_mem hx
    have := h i (by
      by_contra hc
      rw [List.getElem?_eq_none (by omega)] at hi
      cases hi)
    rw [hi] at this
    simpa using this

/-- A component with two ports that both have number 0. -/
def exTwice : Comp := ⟨none, 2, fun _ _ => 0, [0, 0], [false, false], [false, false], [false, false], false⟩

/-- A component with one port that has number 1. -/
def exOff : Comp := ⟨none, 1, fun _ _ => 0, [1], [false], [false], [false], false⟩

/-- **C92** is violated: a component whose two ports both have number 0 is accepted (so that nothing can ever be
connected to its other port), and if the check does fail, it fails with NameError. -/
theorem C92_violation : ¬C92 ∧ exTwice.check = .ok () ∧ exTwice.free = [0, 0] ∧ exOff.check = .error .nameError := by
  have h : exTwice.check = .ok () := by decide +kernel
  refine ⟨fun hc => ?_, h, by decide +kernel, by decide +kernel⟩
  have := (hc exTwice (by decide) (by refine ⟨?_, ?_, ?_, ?_⟩ <;> rfl)).2 (fun hn => absurd hn.1 (by unfold Numbered; decide))
  rw [h] at this
  cases this

/-- **C92**, what holds: a component each of whose ports has one number is accepted exactly if the roles of its ports
are compatible, and is rejected with ValueError otherwise. -/
theorem C92_roles_partial (c : Comp) (hn : 0 < c.n) (hs : Sized c) (ho : Numbered c) :
    (OneRole c ∧ AllOrNone c → c.check = .ok ()) ∧ (¬(OneRole c ∧ AllOrNone c) → c.check = .error .valueError) := by
  obtain ⟨_, hsrc, hdet, hact⟩ := hs
  have hlt : ∀ {l : List Bool} {i : ℕ} {b : Bool}, l.length = c.n → l[i]? = some b → i < c.n := fun {l i b} hl h => by
    by_contra hi
    rw [List.getElem?_eq_none (by omega)] at h
    cases h
  constructor
  · rintro ⟨h1, h2⟩
    unfold Comp.check
    rw [overlap_false hsrc fun i hi => (h1 i hi).1, overlap_false hsrc fun i hi => (h1 i hi).2.1,
      overlap_false hdet fun i hi => (h1 i hi).2.2, sorted_check hn ho]
    have : (c.act.any id && !(c.act.all id || c.isNet)) = false := by
      rcases h2 with h2 | h2 | h2
      · simp [h2]
      · have : c.act.all id = true := (all_iff_getElem? _).2 fun i hi => h2 i (hact ▸ hi)
        simp [this]
      · have : c.act.any id = false := by
          rw [Bool.eq_false_iff]
          intro hc
          obtain ⟨i, hi⟩ := (any_iff_getElem? _).1 hc
          rw [h2 i (hlt hact hi)] at hi
          cases hi
        simp [this]
    rw [this]
    rfl
  · intro h
    unfold Comp.check
    by_cases h1 : overlap c.src c.det = true
    · rw [if_pos h1]
    rw [if_neg h1]
    by_cases h2 : overlap c.src c.act = true
    · rw [if_pos h2]
    rw [if_neg h2]
    by_cases h3 : overlap c.det c.act = true
    · rw [if_pos h3]
    rw [if_neg h3, sorted_check hn ho, if_neg (by simp), if_pos]
    have hr : OneRole c := fun i _ => ⟨fun hc => h1 ((overlap_iff _ _).2 ⟨i, hc⟩), fun hc => h2 ((overlap_iff _ _).2 ⟨i, hc⟩),
      fun hc => h3 ((overlap_iff _ _).2 ⟨i, hc⟩)⟩
    have hA : ¬AllOrNone c := fun hA => h ⟨hr, hA⟩
    unfold AllOrNone at hA
    push Not at hA
    obtain ⟨n1, ⟨i, hi, n2⟩, ⟨j, hj, n3⟩⟩ := hA
    have e1 : c.act.any id = true := (any_iff_getElem? _).2 ⟨j, by
      have hj' : j < c.act.length := hact ▸ hj
      rw [List.getElem?_eq_getElem hj'] at n3 ⊢
      cases hv : c.act[j] with
      | true => rfl
      | false => exact absurd (by rw [hv]) n3⟩
    have e2 : c.act.all id = false := by
      rw [Bool.eq_false_iff]
      intro hc
      exact n2 ((all_iff_getElem? _).1 hc i (hact ▸ hi))
    have e3 : c.isNet = false := by simpa using n1
    simp [e1, e2, e3]

/-- A source at one port and a detector at the other, numbered backwards. -/
def exTransceiver : Comp := ⟨none, 2, fun _ _ => 0, [1, 0], [true, false], [false, true], [false, false], false⟩

example : exTransceiver.check = .ok () := by
  refine (C92_roles_partial exTransceiver (by decide) ⟨rfl, rfl, rfl, rfl⟩ (List.Perm.swap 0 1 [])).1 ⟨?_, .inr (.inr ?_)⟩
  · intro i hi
    have : i = 0 ∨ i = 1 := by simp only [exTransceiver] at hi; omega
    rcases this with rfl | rfl <;> simp [exTransceiver]
  · intro i hi
    have : i = 0 ∨ i = 1 := by simp only [exTransceiver] at hi; omega
    rcases this with rfl | rfl <;> simp [exTransceiver]

/-- A port that is both a source and a detector is refused. -/
example : (leaf 1 [true] [true] [false]).check = .error .valueError :=
  (C92_roles_partial (leaf 1 [true] [true] [false]) (by decide) ⟨rfl, rfl, rfl, rfl⟩ (List.Perm.refl _)).2
    fun h => (h.1 0 (by decide)).1 ⟨rfl, rfl⟩

/-- **C92**, what the check of the port numbers amounts to: it passes as soon as one of the sorted numbers is where it
would be in a permutation. -/
theorem C92_numbers (c : Comp) (hs : Sized c) (hr : OneRole c) (ha : AllOrNone c) :
    c.check = .ok () ↔ ∃ i < c.n, (c.portOrder.insertionSort (· ≤ ·))[i]? = some i := by
  obtain ⟨hp, hsrc, hdet, hact⟩ := hs
  have hlt : ∀ {l : List Bool} {i : ℕ} {b : Bool}, l.length = c.n → l[i]? = some b → i < c.n := fun {l i b} hl h => by
    by_contra hi
    rw [List.getElem?_eq_none (by omega)] at h
    cases h
  have hA : (c.act.any id && !(c.act.all id || c.isNet)) = false := by
    rcases ha with h2 | h2 | h2
    · simp [h2]
    · have : c.act.all id = true := (all_iff_getElem? _).2 fun i hi => h2 i (hact ▸ hi)
      simp [this]
    · have : c.act.any id = false := by
        rw [Bool.eq_false_iff]
        intro hc
        obtain ⟨i, hi⟩ := (any_iff_getElem? _).1 hc
        rw [h2 i (hlt hact hi)] at hi
        cases hi
      simp [this]
  unfold Comp.check
  rw [overlap_false hsrc fun i hi => (hr i hi).1, overlap_false hsrc fun i hi => (hr i hi).2.1,
    overlap_false hdet fun i hi => (hr i hi).2.2, hA]
  simp only [Bool.false_eq_true, if_false]
  have hlen : (c.portOrder.insertionSort (· ≤ ·)).length = c.n := by rw [List.length_insertionSort, hp]
  generalize c.portOrder.insertionSort (· ≤ ·) = l at hlen
  constructor
  · intro h
    split at h
    · cases h
    rename_i hne
    by_contra hc
    push Not at hc
    refine hne ((all_iff_getElem? _).2 fun i hi => ?_)
    have hi' : i < c.n := by rw [List.length_zipWith, List.length_range, hlen, min_self] at hi; exact hi
    have := hc i hi'
    rw [List.getElem?_zipWith, List.getElem?_eq_getElem (hlen ▸ hi'), List.getElem?_eq_getElem (by simpa using hi')]
    rw [List.getElem?_eq_getElem (hlen ▸ hi')] at this
    simpa using this
  · rintro ⟨i, hi, h⟩
    rw [if_neg]
    intro hc
    have := (all_iff_getElem? _).1 hc i (by rw [List.length_zipWith, List.length_range, hlen, min_self]; exact hi)
    rw [List.getElem?_zipWith, h, List.getElem?_eq_getElem (by simpa using hi)] at this
    simp at this

example : (⟨none, 3, fun _ _ => 0, [2, 2, 2], List.replicate 3 false, List.replicate 3 false, List.replicate 3 false,
    false⟩ : Comp).check = .ok () := by
  refine (C92_numbers _ ⟨rfl, rfl, rfl, rfl⟩ ?_ (.inr (.inr ?_))).2 ⟨2, by decide, by decide⟩
  · intro i hi
    have : i = 0 ∨ i = 1 ∨ i = 2 := by simp only at hi; omega
    rcases this with rfl | rfl | rfl <;> simp
  · intro i hi
    have : i = 0 ∨ i = 1 ∨ i = 2 := by simp only at hi; omega
    rcases this with rfl | rfl | rfl <;> simp

end PT
