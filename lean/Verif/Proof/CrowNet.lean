import Verif.Spec.Crow
import Verif.Proof.Crow
import Verif.Props.Named

/-!
# The network of coupled resonators
-/

namespace PT
open Spec

namespace Crow

def dcN (i : ℕ) : Str := "dc".toList ++ natStr i
def topN (i : ℕ) : Str := "top_wg".toList ++ natStr i
def btmN (i : ℕ) : Str := "btm_wg".toList ++ natStr i

/-- The elements of one row. -/
def elems (n : ℕ) (start : Str) (a b : ℤ) (wg : ℕ → Str) (fin : Str) : List Elem :=
  ⟨none, start, some 0⟩ :: ((List.range n).flatMap fun i => [⟨some a, dcN i, some b⟩, ⟨some 0, wg i, some 1⟩]) ++
    [⟨some a, dcN n, some b⟩, ⟨some 0, fin, none⟩]

/-- The connections of one row. -/
def row (n : ℕ) (start : Str) (a b : ℤ) (wg : ℕ → Str) (fin : Str) : List Conn :=
  Conn.inner start 0 (dcN 0) a ::
    ((List.range n).flatMap fun i => [Conn.inner (dcN i) b (wg i) 0, Conn.inner (wg i) 1 (dcN (i + 1)) a]) ++
    [Conn.inner (dcN n) b fin 0]

theorem between_row (a b : ℤ) (wg : ℕ → Str) (fin : Str) : ∀ (m j : ℕ) (e : Option ℤ) (x : Str) (y : ℤ),
    between (⟨e, x, some y⟩ :: ((List.range' j m).flatMap fun i => [⟨some a, dcN i, some b⟩, ⟨some 0, wg i, some 1⟩]) ++
      [⟨some a, dcN (j + m), some b⟩, ⟨some 0, fin, none⟩]) =
    Conn.inner x y (dcN j) a ::
      ((List.range' j m).flatMap fun i => [Conn.inner (dcN i) b (wg i) 0, Conn.inner (wg i) 1 (dcN (i + 1)) a]) ++
      [Conn.inner (dcN (j + m)) b fin 0] := by
  intro m
  induction m with
  | zero => intro j e x y; rfl
  | succ m ih =>
    intro j e x y
    have := ih (j + 1) (some 0) (wg j) 1
    rw [show j + (m + 1) = j + 1 + m by omega]
    rw [List.range'_succ]
    simp only [List.flatMap_cons, List.cons_append, List.nil_append] at this ⊢
    simp only [between, Option.map₂_some_some, Option.toList_some, List.cons_append, List.nil_append]
    rw [this]

theorem between_elems (n : ℕ) (start : Str) (a b : ℤ) (wg : ℕ → Str) (fin : Str) :
    between (elems n start a b wg fin) = row n start a b wg fin := by
  have := between_row a b wg fin n 0 none start 0
  rw [← List.range_eq_range', zero_add] at this
  exact this

theorem elems_chain (n : ℕ) (start : Str) (a b : ℤ) (wg : ℕ → Str) (fin : Str) (h1 : GoodName start) (h2 : GoodName fin)
    (h3 : ∀ i, GoodName (dcN i)) (h4 : ∀ i, GoodName (wg i)) :
    linkConns ((elems n start a b wg fin).map fun e => .str e.text) = ((row n start a b wg fin).map Conn.text, .ok ()) := by
  have h := linkConns_chain none none (elems n start a b wg fin) [] [] (Or.inl rfl) (Or.inl rfl) (by
    have hd : (elems n start a b wg fin).dropLast = ⟨none, start, some 0⟩ ::
        ((List.range n).flatMap fun i => [⟨some a, dcN i, some b⟩, ⟨some 0, wg i, some 1⟩]) ++ [⟨some a, dcN n, some b⟩] := by
      unfold elems
      rw [show ([⟨some a, dcN n, some b⟩, ⟨some 0, fin, none⟩] : List Elem) = [⟨some a, dcN n, some b⟩] ++ [⟨some 0, fin, none⟩] from rfl,
        ← List.append_assoc, List.dropLast_concat]
    refine ⟨by simp [elems], ?_, ?_, ?_, by simp, by simp, ?_⟩
    · intro e he
      unfold elems at he
      simp only [List.cons_append, List.mem_cons, List.mem_append, List.mem_flatMap, List.not_mem_nil, or_false] at he
      rcases he with rfl | ⟨i, -, rfl | rfl⟩ | rfl | rfl
      · exact h1
      · exact h3 i
      · exact h4 i
      · exact h3 n
      · exact h2
    · intro e he
      unfold elems at he
      simp only [List.cons_append, List.tail_cons, List.mem_cons, List.mem_append, List.mem_flatMap, List.not_mem_nil, or_false] at he
      rcases he with ⟨i, -, rfl | rfl⟩ | rfl | rfl <;> rfl
    · intro e he
      rw [hd] at he
      simp only [List.cons_append, List.mem_cons, List.mem_append, List.mem_flatMap, List.not_mem_nil, or_false] at he
      rcases he with rfl | ⟨i, -, rfl | rfl⟩ | rfl <;> rfl
    · intro h
      simp [elems] at h)
  rw [List.append_nil] at h
  simpa [chain, between_elems] using h

theorem dc_good (i : ℕ) : GoodName (dcN i) := (lbl_attr (s := "dc".toList) (by decide +kernel) i).1
theorem top_good (i : ℕ) : GoodName (topN i) := (lbl_attr (s := "top_wg".toList) (by decide +kernel) i).1
theorem btm_good (i : ℕ) : GoodName (btmN i) := (lbl_attr (s := "btm_wg".toList) (by decide +kernel) i).1
theorem plain_good : GoodName "source".toList ∧ GoodName "through".toList ∧ GoodName "drop".toList ∧ GoodName "add".toList :=
  ⟨(attr_of (by decide +kernel)).1, (attr_of (by decide +kernel)).1, (attr_of (by decide +kernel)).1, (attr_of (by decide +kernel)).1⟩

/-- The ends of the rows. -/
def fin1 (n : ℕ) : Str := if n % 2 = 1 then "drop".toList else "add".toList
def fin2 (n : ℕ) : Str := if n % 2 = 1 then "add".toList else "drop".toList

def conns (n : ℕ) : List Conn :=
  row n "source".toList 0 3 topN (fin1 n) ++ row n "through".toList 1 2 btmN (fin2 n)

theorem fin_good (n : ℕ) : GoodName (fin1 n) ∧ GoodName (fin2 n) := by
  unfold fin1 fin2
  split
  · exact ⟨plain_good.2.2.1, plain_good.2.2.2⟩
  · exact ⟨plain_good.2.2.2, plain_good.2.2.1⟩

theorem digits : intStr 0 = ['0'] ∧ intStr 1 = ['1'] ∧ intStr 2 = ['2'] ∧ intStr 3 = ['3'] := by decide +kernel

theorem elem_texts (i : ℕ) :
    Elem.text ⟨none, "source".toList, some 0⟩ = "source:0".toList ∧ Elem.text ⟨none, "through".toList, some 0⟩ = "through:0".toList ∧
    Elem.text ⟨some 0, "drop".toList, none⟩ = "0:drop".toList ∧ Elem.text ⟨some 0, "add".toList, none⟩ = "0:add".toList ∧
    Elem.text ⟨some 0, dcN i, some 3⟩ = "0:dc".toList ++ natStr i ++ ":3".toList ∧
    Elem.text ⟨some 1, dcN i, some 2⟩ = "1:dc".toList ++ natStr i ++ ":2".toList ∧
    Elem.text ⟨some 0, topN i, some 1⟩ = "0:top_wg".toList ++ natStr i ++ ":1".toList ∧
    Elem.text ⟨some 0, btmN i, some 1⟩ = "0:btm_wg".toList ++ natStr i ++ ":1".toList := by
  obtain ⟨h0, h1, h2, h3⟩ := digits
  simp only [Elem.text, h0, h1, h2, h3, dcN, topN, btmN]
  refine ⟨by decide, by decide, by decide, by decide, ?_, ?_, ?_, ?_⟩ <;> simp

theorem links_ok (n : ℕ) : (∀ l ∈ crowLinks n, (linkConns l).2 = .ok ()) ∧
    (crowLinks n).flatMap (fun l => (linkConns l).1) = (conns n).map Conn.text := by
  have e1 : crowLinks n = [(elems n "source".toList 0 3 topN (fin1 n)).map fun e => .str e.text,
      (elems n "through".toList 1 2 btmN (fin2 n)).map fun e => .str e.text] := by
    unfold crowLinks elems fin1 fin2
    simp only [List.map_cons, List.map_append, List.map_flatMap, List.map_nil]
    obtain ⟨t1, t2, t3, t4, -⟩ := elem_texts 0
    have t5 := fun i => (elem_texts i).2.2.2.2.1
    have t6 := fun i => (elem_texts i).2.2.2.2.2.1
    have t7 := fun i => (elem_texts i).2.2.2.2.2.2.1
    have t8 := fun i => (elem_texts i).2.2.2.2.2.2.2
    by_cases h : n % 2 = 1
    · simp only [if_pos h, t1, t2, t3, t4, t5, t6, t7, t8]
    · simp only [if_neg h, t1, t2, t3, t4, t5, t6, t7, t8]
  have h1 := elems_chain n "source".toList 0 3 topN (fin1 n) plain_good.1 (fin_good n).1 dc_good top_good
  have h2 := elems_chain n "through".toList 1 2 btmN (fin2 n) plain_good.2.1 (fin_good n).2 dc_good btm_good
  rw [e1]
  constructor
  · intro l hl
    simp only [List.mem_cons, List.not_mem_nil, or_false] at hl
    rcases hl with rfl | rfl
    · rw [h1]
    · rw [h2]
  · simp only [List.flatMap_cons, List.flatMap_nil, List.append_nil, h1, h2, conns, List.map_append]

/-! ## Names -/

theorem dc_inj {i j : ℕ} (h : dcN i = dcN j) : i = j := lbl_inj (s := "dc".toList) h
theorem top_inj {i j : ℕ} (h : topN i = topN j) : i = j := lbl_inj (s := "top_wg".toList) h
theorem btm_inj {i j : ℕ} (h : btmN i = btmN j) : i = j := lbl_inj (s := "btm_wg".toList) h
theorem dc_key (i : ℕ) : (dcN i).take 2 = ['d', 'c'] := rfl
theorem top_key (i : ℕ) : (topN i).take 2 = ['t', 'o'] := rfl
theorem btm_key (i : ℕ) : (btmN i).take 2 = ['b', 't'] := rfl

theorem key_ne {x y : Str} (h : x.take 2 ≠ y.take 2) : x ≠ y := fun h' => h (congrArg _ h')

/-- A function from names, given by a list. -/
def table {α : Type} (n : ℕ) (z : α) (s t d a : α) (dc top btm : ℕ → α) : List (Str × α) :=
  [("source".toList, s), ("through".toList, t), ("drop".toList, d), ("add".toList, a)] ++
    (List.range (n + 1)).map (fun i => (dcN i, dc i)) ++
    (List.range n).flatMap fun i => [(topN i, top i), (btmN i, btm i)]

theorem table_names {α : Type} (n : ℕ) (z : α) (s t d a : α) (dc top btm : ℕ → α) :
    ((table n z s t d a dc top btm).map Prod.fst).Nodup := by
  unfold table
  simp only [List.map_append, List.map_cons, List.map_nil, List.map_map, List.map_flatMap]
  rw [List.nodup_append, List.nodup_append]
  refine ⟨⟨by decide, ?_, ?_⟩, ?_, ?_⟩
  · exact (List.nodup_map_iff fun _ _ h => dc_inj h).mpr List.nodup_range
  · intro x hx y hy h
    obtain ⟨i, -, rfl⟩ := List.mem_map.mp hy
    subst h
    have hk := dc_key i
    simp only [Function.comp] at hx
    simp only [List.mem_cons, List.not_mem_nil, or_false] at hx
    rcases hx with h | h | h | h <;> rw [h] at hk <;> revert hk <;> decide
  · rw [List.nodup_flatMap]
    refine ⟨fun i _ => ?_, ?_⟩
    · simp only [List.nodup_cons, List.mem_cons, List.not_mem_nil, or_false, not_false_iff, List.nodup_nil, and_true]
      exact key_ne (by rw [top_key, btm_key]; decide)
    · refine List.nodup_range.pairwise_of_forall_ne fun i _ j _ hij => ?_
      intro x hx hy
      simp only [List.mem_cons, List.not_mem_nil, or_false] at hx hy
      rcases hx with rfl | rfl <;> rcases hy with h | h
      · exact hij (top_inj h)
      · exact key_ne (by rw [top_key, btm_key]; decide) h
      · exact key_ne (by rw [top_key, btm_key]; decide) h.symm
      · exact hij (btm_inj h)
  · intro x hx y hy h
    subst h
    obtain ⟨i, -, hy⟩ := List.mem_flatMap.mp hy
    simp only [List.mem_cons, List.not_mem_nil, or_false] at hy
    have hk : x.take 2 = ['t', 'o'] ∨ x.take 2 = ['b', 't'] := by
      rcases hy with rfl | rfl
      · exact Or.inl (top_key i)
      · exact Or.inr (btm_key i)
    rcases List.mem_append.mp hx with hx | hx
    · simp only [List.mem_cons, List.not_mem_nil, or_false] at hx
      rcases hx with h | h | h | h <;> rw [h] at hk <;> revert hk <;> decide
    · obtain ⟨j, -, rfl⟩ := List.mem_map.mp hx
      simp only [Function.comp, dc_key] at hk
      revert hk
      decide

theorem mem_table {α : Type} {n : ℕ} {z : α} {s t d a : α} {dc top btm : ℕ → α} {q : Str × α} :
    q ∈ table n z s t d a dc top btm ↔ q = ("source".toList, s) ∨ q = ("through".toList, t) ∨ q = ("drop".toList, d) ∨
      q = ("add".toList, a) ∨ (∃ i ≤ n, q = (dcN i, dc i)) ∨ (∃ i < n, q = (topN i, top i)) ∨ ∃ i < n, q = (btmN i, btm i) := by
  unfold table
  simp only [List.cons_append, List.nil_append, List.mem_cons, List.mem_append, List.mem_map, List.mem_flatMap, List.mem_range,
    List.not_mem_nil, or_false]
  constructor
  · rintro (h | h | h | h | ⟨i, hi, rfl⟩ | ⟨i, hi, h | h⟩)
    · exact .inl h
    · exact .inr (.inl h)
    · exact .inr (.inr (.inl h))
    · exact .inr (.inr (.inr (.inl h)))
    · exact .inr (.inr (.inr (.inr (.inl ⟨i, by omega, rfl⟩))))
    · exact .inr (.inr (.inr (.inr (.inr (.inl ⟨i, hi, h⟩)))))
    · exact .inr (.inr (.inr (.inr (.inr (.inr ⟨i, hi, h⟩)))))
  · rintro (h | h | h | h | ⟨i, hi, rfl⟩ | ⟨i, hi, h⟩ | ⟨i, hi, h⟩)
    · exact .inl h
    · exact .inr (.inl h)
    · exact .inr (.inr (.inl h))
    · exact .inr (.inr (.inr (.inl h)))
    · exact .inr (.inr (.inr (.inr (.inl ⟨i, by omega, rfl⟩))))
    · exact .inr (.inr (.inr (.inr (.inr ⟨i, hi, .inl h⟩))))
    · exact .inr (.inr (.inr (.inr (.inr ⟨i, hi, .inr h⟩))))

/-- The function given by the table. -/
def look {α : Type} (n : ℕ) (z : α) (s t d a : α) (dc top btm : ℕ → α) (x : Str) : α :=
  (dictGet x (table n z s t d a dc top btm)).getD z

theorem look_spec {α : Type} (n : ℕ) (z : α) (s t d a : α) (dc top btm : ℕ → α) :
    let f := look n z s t d a dc top btm
    f "source".toList = s ∧ f "through".toList = t ∧ f "drop".toList = d ∧ f "add".toList = a ∧ (∀ i ≤ n, f (dcN i) = dc i) ∧
      (∀ i < n, f (topN i) = top i) ∧ ∀ i < n, f (btmN i) = btm i := by
  have H : ∀ q ∈ table n z s t d a dc top btm, look n z s t d a dc top btm q.1 = q.2 := by
    intro q hq
    unfold look
    rw [dictGet_of_mem (table_names n z s t d a dc top btm) (v := q.2) hq]
    rfl
  refine ⟨H (_, _) (mem_table.mpr ?_), H (_, _) (mem_table.mpr ?_), H (_, _) (mem_table.mpr ?_), H (_, _) (mem_table.mpr ?_),
    fun i hi => H (_, _) (mem_table.mpr ?_), fun i hi => H (_, _) (mem_table.mpr ?_), fun i hi => H (_, _) (mem_table.mpr ?_)⟩
  · exact .inl rfl
  · exact .inr (.inl rfl)
  · exact .inr (.inr (.inl rfl))
  · exact .inr (.inr (.inr (.inl rfl)))
  · exact .inr (.inr (.inr (.inr (.inl ⟨i, hi, rfl⟩))))
  · exact .inr (.inr (.inr (.inr (.inr (.inl ⟨i, hi, rfl⟩)))))
  · exact .inr (.inr (.inr (.inr (.inr (.inr ⟨i, hi, rfl⟩)))))

variable {n : ℕ} {k : ℕ → ℝ} {top btm : ℕ → Wg}

theorem modules_table (n : ℕ) (k : ℕ → ℝ) (top btm : ℕ → Wg) : crowModules n k top btm =
    table n .term .source .detector .detector .detector (fun i => .coupler (k i)) (fun i => (top i).part) (fun i => (btm i).part) := rfl

theorem mem_modules {q : Str × Part} : q ∈ crowModules n k top btm ↔
    q = ("source".toList, .source) ∨ q = ("through".toList, .detector) ∨ q = ("drop".toList, .detector) ∨
      q = ("add".toList, .detector) ∨ (∃ i ≤ n, q = (dcN i, .coupler (k i))) ∨ (∃ i < n, q = (topN i, (top i).part)) ∨
      ∃ i < n, q = (btmN i, (btm i).part) := by
  rw [modules_table]
  exact mem_table

theorem mem_row {m : ℕ} {start : Str} {a b : ℤ} {wg : ℕ → Str} {fin : Str} {x : Conn} : x ∈ row m start a b wg fin ↔
    x = .inner start 0 (dcN 0) a ∨ (∃ i < m, x = .inner (dcN i) b (wg i) 0 ∨ x = .inner (wg i) 1 (dcN (i + 1)) a) ∨
      x = .inner (dcN m) b fin 0 := by
  unfold row
  simp only [List.cons_append, List.mem_cons, List.mem_append, List.mem_flatMap, List.mem_range, List.not_mem_nil, or_false]

/-- What is connected with what. -/
theorem mem_conns {x : Conn} : x ∈ conns n ↔
    x = .inner "source".toList 0 (dcN 0) 0 ∨ x = .inner "through".toList 0 (dcN 0) 1 ∨
    (∃ i < n, x = .inner (dcN i) 3 (topN i) 0 ∨ x = .inner (topN i) 1 (dcN (i + 1)) 0 ∨
      x = .inner (dcN i) 2 (btmN i) 0 ∨ x = .inner (btmN i) 1 (dcN (i + 1)) 1) ∨
    x = .inner (dcN n) 3 (fin1 n) 0 ∨ x = .inner (dcN n) 2 (fin2 n) 0 := by
  unfold conns
  rw [List.mem_append, mem_row, mem_row]
  constructor
  · rintro ((h | ⟨i, hi, h | h⟩ | h) | (h | ⟨i, hi, h | h⟩ | h))
    · exact .inl h
    · exact .inr (.inr (.inl ⟨i, hi, .inl h⟩))
    · exact .inr (.inr (.inl ⟨i, hi, .inr (.inl h)⟩))
    · exact .inr (.inr (.inr (.inl h)))
    · exact .inr (.inl h)
    · exact .inr (.inr (.inl ⟨i, hi, .inr (.inr (.inl h))⟩))
    · exact .inr (.inr (.inl ⟨i, hi, .inr (.inr (.inr h))⟩))
    · exact .inr (.inr (.inr (.inr h)))
  · rintro (h | h | ⟨i, hi, h | h | h | h⟩ | h | h)
    · exact .inl (.inl h)
    · exact .inr (.inl h)
    · exact .inl (.inr (.inl ⟨i, hi, .inl h⟩))
    · exact .inl (.inr (.inl ⟨i, hi, .inr h⟩))
    · exact .inr (.inr (.inl ⟨i, hi, .inl h⟩))
    · exact .inr (.inr (.inl ⟨i, hi, .inr h⟩))
    · exact .inl (.inr (.inr h))
    · exact .inr (.inr (.inr h))

theorem fin_cases (n : ℕ) : (fin1 n = "drop".toList ∧ fin2 n = "add".toList) ∨ (fin1 n = "add".toList ∧ fin2 n = "drop".toList) := by
  unfold fin1 fin2
  split
  · exact .inl ⟨rfl, rfl⟩
  · exact .inr ⟨rfl, rfl⟩

theorem row_len (m : ℕ) (start : Str) (a b : ℤ) (wg : ℕ → Str) (fin : Str) : (row m start a b wg fin).length = 2 * m + 2 := by
  unfold row
  simp only [List.cons_append, List.length_cons, List.length_append, List.length_flatMap, List.length_nil]
  rw [List.map_const', List.sum_replicate, List.length_range]
  simp
  omega

theorem sum_four (m : ℕ) : ((List.range m).flatMap fun _ => [2, 2]).sum = 4 * m := by
  induction m with
  | zero => rfl
  | succ m ih =>
    rw [List.range_succ, List.flatMap_append, List.sum_append, ih]
    simp
    omega

theorem closed (n : ℕ) (k : ℕ → ℝ) (top btm : ℕ → Wg) : Closed (crowModules n k top btm) (conns n) where
  names := by rw [modules_table]; exact table_names ..
  good := by
    intro q hq
    rcases mem_modules.mp hq with rfl | rfl | rfl | rfl | ⟨i, -, rfl⟩ | ⟨i, -, rfl⟩ | ⟨i, -, rfl⟩
    · exact plain_good.1
    · exact plain_good.2.1
    · exact plain_good.2.2.1
    · exact plain_good.2.2.2
    · exact dc_good i
    · exact top_good i
    · exact btm_good i
  sized := by
    intro q hq
    rcases mem_modules.mp hq with rfl | rfl | rfl | rfl | ⟨i, -, rfl⟩ | ⟨i, -, rfl⟩ | ⟨i, -, rfl⟩ <;> simp [Part.n, Wg.part]
  nonempty := by simp [crowModules]
  ports := by
    have hnd : (portNames (crowModules n k top btm)).Nodup := by
      unfold portNames
      rw [List.nodup_flatMap]
      refine ⟨fun q _ => ?_, ?_⟩
      · exact (List.nodup_map_iff fun i j h => by simpa using h).mpr List.nodup_range
      · have h := table_names n Part.term .source .detector .detector .detector (fun i => .coupler (k i)) (fun i => (top i).part)
          (fun i => (btm i).part)
        rw [← modules_table, List.Nodup, List.pairwise_map] at h
        refine h.imp fun {p q} hpq => ?_
        intro x hx hy
        obtain ⟨i, -, rfl⟩ := List.mem_map.mp hx
        obtain ⟨j, -, h⟩ := List.mem_map.mp hy
        exact hpq (congrArg Prod.fst h).symm
    refine perm_of_cover hnd ?_ ?_
    · intro x hx
      obtain ⟨q, hq, i, hi, rfl⟩ := mem_portNames.mp hx
      have L : ∀ {a i b j}, Conn.inner a i b j ∈ conns n → (a, i) ∈ endpoints (conns n) := fun h =>
        mem_endpoints.mpr ⟨_, _, _, _, h, .inl rfl⟩
      have R : ∀ {a i b j}, Conn.inner a i b j ∈ conns n → (b, j) ∈ endpoints (conns n) := fun h =>
        mem_endpoints.mpr ⟨_, _, _, _, h, .inr rfl⟩
      rcases mem_modules.mp hq with rfl | rfl | rfl | rfl | ⟨l, hl, rfl⟩ | ⟨l, hl, rfl⟩ | ⟨l, hl, rfl⟩
      · obtain rfl : i = 0 := by simp [Part.n] at hi; exact hi
        exact L (mem_conns.mpr (.inl rfl))
      · obtain rfl : i = 0 := by simp [Part.n] at hi; exact hi
        exact L (mem_conns.mpr (.inr (.inl rfl)))
      · obtain rfl : i = 0 := by simp [Part.n] at hi; exact hi
        rcases fin_cases n with ⟨h1, h2⟩ | ⟨h1, h2⟩
        · rw [← h1]; exact R (mem_conns.mpr (.inr (.inr (.inr (.inl rfl)))))
        · rw [← h2]; exact R (mem_conns.mpr (.inr (.inr (.inr (.inr rfl)))))
      · obtain rfl : i = 0 := by simp [Part.n] at hi; exact hi
        rcases fin_cases n with ⟨h1, h2⟩ | ⟨h1, h2⟩
        · rw [← h2]; exact R (mem_conns.mpr (.inr (.inr (.inr (.inr rfl)))))
        · rw [← h1]; exact R (mem_conns.mpr (.inr (.inr (.inr (.inl rfl)))))
      · have : i = 0 ∨ i = 1 ∨ i = 2 ∨ i = 3 := by simp only [Part.n] at hi; omega
        rcases this with rfl | rfl | rfl | rfl
        · cases l with
          | zero => exact R (mem_conns.mpr (.inl rfl))
          | succ l => exact R (mem_conns.mpr (.inr (.inr (.inl ⟨l, hl, .inr (.inl rfl)⟩))))
        · cases l with
          | zero => exact R (mem_conns.mpr (.inr (.inl rfl)))
          | succ l => exact R (mem_conns.mpr (.inr (.inr (.inl ⟨l, hl, .inr (.inr (.inr rfl))⟩))))
        · rcases Nat.lt_or_ge l n with h | h
          · exact L (mem_conns.mpr (.inr (.inr (.inl ⟨l, h, .inr (.inr (.inl rfl))⟩))))
          · obtain rfl : l = n := by omega
            exact L (mem_conns.mpr (.inr (.inr (.inr (.inr rfl)))))
        · rcases Nat.lt_or_ge l n with h | h
          · exact L (mem_conns.mpr (.inr (.inr (.inl ⟨l, h, .inl rfl⟩))))
          · obtain rfl : l = n := by omega
            exact L (mem_conns.mpr (.inr (.inr (.inr (.inl rfl)))))
      · have : i = 0 ∨ i = 1 := by simp only [Wg.part, Part.n] at hi; omega
        rcases this with rfl | rfl
        · exact R (mem_conns.mpr (.inr (.inr (.inl ⟨l, hl, .inl rfl⟩))))
        · exact L (mem_conns.mpr (.inr (.inr (.inl ⟨l, hl, .inr (.inl rfl)⟩))))
      · have : i = 0 ∨ i = 1 := by simp only [Wg.part, Part.n] at hi; omega
        rcases this with rfl | rfl
        · exact R (mem_conns.mpr (.inr (.inr (.inl ⟨l, hl, .inr (.inr (.inl rfl))⟩))))
        · exact L (mem_conns.mpr (.inr (.inr (.inl ⟨l, hl, .inr (.inr (.inr rfl))⟩))))
    · have h1 : (endpoints (conns n)).length ≤ 2 * (conns n).length := by
        generalize conns n = l
        induction l with
        | nil => simp [endpoints]
        | cons x l ih =>
          have h0 : x.ends.length ≤ 2 := by cases x <;> simp [Conn.ends]
          simp only [endpoints, List.flatMap_cons, List.length_append, List.length_cons] at ih ⊢
          omega
      have h2 : (conns n).length = 4 * n + 4 := by
        unfold conns
        rw [List.length_append, row_len, row_len]
        omega
      have h3 : (portNames (crowModules n k top btm)).length = 8 * n + 8 := by
        have e : ∀ l : List (Str × Part), (portNames l).length = (l.map fun q => q.2.n).sum := by
          intro l
          simp [portNames, List.length_flatMap]
        rw [e]
        unfold crowModules
        simp only [List.map_append, List.map_cons, List.map_nil, List.map_map, List.map_flatMap, List.sum_append, List.sum_cons,
          List.sum_nil]
        rw [show ((fun q : Str × Part => q.2.n) ∘ fun i => ("dc".toList ++ natStr i, Part.coupler (k i))) = fun _ => 4 from rfl,
          List.map_const', List.sum_replicate, List.length_range]
        have : ((List.range n).flatMap fun i => [(top i).part.n, (btm i).part.n]).sum = 4 * n := by
          have : ((List.range n).flatMap fun i => [(top i).part.n, (btm i).part.n]) = (List.range n).flatMap fun _ => [2, 2] := rfl
          rw [this, sum_four]
        rw [this]
        simp [Part.n]
        omega
      omega
  inner := by
    unfold outs
    rw [List.filterMap_eq_nil_iff]
    intro x hx
    rcases mem_conns.mp hx with rfl | rfl | ⟨i, -, rfl | rfl | rfl | rfl⟩ | rfl | rfl <;> rfl

/-! ## Channels -/

theorem foldl_filter (p : Str → Bool) : ∀ (l acc : List Str),
    (l.foldl (fun acc x => if x ∈ acc then acc else acc ++ [x]) acc).filter p =
      (l.filter p).foldl (fun acc x => if x ∈ acc then acc else acc ++ [x]) (acc.filter p) := by
  intro l
  induction l with
  | nil => intro acc; rfl
  | cons x l ih =>
    intro acc
    rw [List.foldl_cons, ih]
    by_cases hp : p x = true
    · rw [List.filter_cons_of_pos hp, List.foldl_cons]
      by_cases hx : x ∈ acc
      · rw [if_pos hx, if_pos (List.mem_filter.mpr ⟨hx, hp⟩)]
      · rw [if_neg hx, if_neg fun h => hx (List.mem_filter.mp h).1, List.filter_append, List.filter_cons_of_pos hp, List.filter_nil]
    · rw [List.filter_cons_of_neg hp]
      by_cases hx : x ∈ acc
      · rw [if_pos hx]
      · rw [if_neg hx, List.filter_append, List.filter_cons_of_neg hp, List.filter_nil, List.append_nil]

theorem filter_row (p : Str → Bool) (m : ℕ) (start : Str) (a b : ℤ) (wg : ℕ → Str) (fin : Str) (h1 : ∀ i, p (dcN i) = false)
    (h2 : ∀ i, p (wg i) = false) :
    ((row m start a b wg fin).flatMap Conn.names).filter p = [start, fin].filter p := by
  have h3 : (((List.range m).flatMap fun i => [Conn.inner (dcN i) b (wg i) 0, Conn.inner (wg i) 1 (dcN (i + 1)) a]).flatMap
      Conn.names).filter p = [] := by
    rw [List.filter_eq_nil_iff]
    intro x hx
    simp only [List.mem_flatMap, List.mem_cons, List.not_mem_nil, or_false] at hx
    obtain ⟨c, ⟨i, -, rfl | rfl⟩, hx⟩ := hx
    · simp only [Conn.names, List.mem_cons, List.not_mem_nil, or_false] at hx
      rcases hx with rfl | rfl
      · simp [h1]
      · simp [h2]
    · simp only [Conn.names, List.mem_cons, List.not_mem_nil, or_false] at hx
      rcases hx with rfl | rfl
      · simp [h2]
      · simp [h1]
  unfold row
  rw [List.flatMap_append, List.flatMap_cons, List.filter_append, List.filter_append, h3, List.append_nil]
  simp only [Conn.names, List.flatMap_cons, List.flatMap_nil, List.append_nil]
  rw [show [start, dcN 0] = [start] ++ [dcN 0] from rfl, show [dcN m, fin] = [dcN m] ++ [fin] from rfl,
    show [start, fin] = [start] ++ [fin] from rfl, List.filter_append, List.filter_append, List.filter_append]
  simp [h1]

theorem filter_mentions (n : ℕ) (p : Str → Bool) (h1 : ∀ i, p (dcN i) = false) (h2 : ∀ i, p (topN i) = false)
    (h3 : ∀ i, p (btmN i) = false) : (firstMentions (conns n)).filter p =
      (["source".toList, fin1 n, "through".toList, fin2 n].filter p).foldl (fun acc x => if x ∈ acc then acc else acc ++ [x]) [] := by
  unfold firstMentions
  rw [foldl_filter]
  unfold conns
  rw [List.flatMap_append, List.filter_append, filter_row p _ _ _ _ _ _ h1 h2, filter_row p _ _ _ _ _ _ h1 h3, ← List.filter_append]
  rfl

theorem any_part (f : Part → Bool) (hc : ∀ i, f (.coupler (k i)) = false) (ht : ∀ i, f (top i).part = false)
    (hb : ∀ i, f (btm i).part = false) (x : Str) : ((crowModules n k top btm).any fun q => decide (q.1 = x) && f q.2) =
      ((decide ("source".toList = x) && f .source) || (decide ("through".toList = x) && f .detector) ||
        (decide ("drop".toList = x) && f .detector) || (decide ("add".toList = x) && f .detector)) := by
  have h1 : (((List.range (n + 1)).map (fun i => ("dc".toList ++ natStr i, Part.coupler (k i)))).any
      fun q => decide (q.1 = x) && f q.2) = false := by
    rw [List.any_eq_false]
    intro q hq
    obtain ⟨i, -, rfl⟩ := List.mem_map.mp hq
    simp [hc]
  have h2 : (((List.range n).flatMap fun i => [("top_wg".toList ++ natStr i, (top i).part), ("btm_wg".toList ++ natStr i,
      (btm i).part)]).any fun q => decide (q.1 = x) && f q.2) = false := by
    rw [List.any_eq_false]
    intro q hq
    obtain ⟨i, -, hq⟩ := List.mem_flatMap.mp hq
    simp only [List.mem_cons, List.not_mem_nil, or_false] at hq
    rcases hq with rfl | rfl
    · simp [ht]
    · simp [hb]
  unfold crowModules
  rw [List.any_append, List.any_append, h1, h2, Bool.or_false, Bool.or_false]
  simp only [List.any_cons, List.any_nil, Bool.or_false, Bool.or_assoc]

theorem plain_ne (x : Str) (hx : x.take 2 = ['d', 'c'] ∨ x.take 2 = ['t', 'o'] ∨ x.take 2 = ['b', 't']) :
    "source".toList ≠ x ∧ "through".toList ≠ x ∧ "drop".toList ≠ x ∧ "add".toList ≠ x := by
  refine ⟨?_, ?_, ?_, ?_⟩ <;> rintro rfl <;> revert hx <;> decide

theorem channels (n : ℕ) (k : ℕ → ℝ) (top btm : ℕ → Wg) :
    emitters (crowModules n k top btm) (conns n) = ["source".toList] ∧
    listeners (crowModules n k top btm) (conns n) = [fin1 n, "through".toList, fin2 n] := by
  have H : ∀ f : Part → Bool, (∀ i, f (.coupler (k i)) = false) → (∀ i, f (top i).part = false) → (∀ i, f (btm i).part = false) →
      ∀ x : Str, (x.take 2 = ['d', 'c'] ∨ x.take 2 = ['t', 'o'] ∨ x.take 2 = ['b', 't']) →
        ((crowModules n k top btm).any fun q => decide (q.1 = x) && f q.2) = false := by
    intro f hc ht hb x hx
    rw [any_part f hc ht hb]
    obtain ⟨h1, h2, h3, h4⟩ := plain_ne x hx
    simp only [decide_eq_false h1, decide_eq_false h2, decide_eq_false h3, decide_eq_false h4, Bool.false_and, Bool.or_false]
  constructor
  · unfold emitters emittersIn
    rw [filter_mentions n _ (fun i => H isSource (fun _ => rfl) (fun _ => rfl) (fun _ => rfl) _ (.inl (dc_key i)))
      (fun i => H isSource (fun _ => rfl) (fun _ => rfl) (fun _ => rfl) _ (.inr (.inl (top_key i))))
      (fun i => H isSource (fun _ => rfl) (fun _ => rfl) (fun _ => rfl) _ (.inr (.inr (btm_key i))))]
    simp only [any_part isSource (fun _ => rfl) (fun _ => rfl) (fun _ => rfl)]
    rcases fin_cases n with ⟨h1, h2⟩ | ⟨h1, h2⟩ <;> rw [h1, h2] <;> decide
  · unfold listeners listenersIn
    rw [filter_mentions n _ (fun i => H isDetector (fun _ => rfl) (fun _ => rfl) (fun _ => rfl) _ (.inl (dc_key i)))
      (fun i => H isDetector (fun _ => rfl) (fun _ => rfl) (fun _ => rfl) _ (.inr (.inl (top_key i))))
      (fun i => H isDetector (fun _ => rfl) (fun _ => rfl) (fun _ => rfl) _ (.inr (.inr (btm_key i))))]
    simp only [any_part isDetector (fun _ => rfl) (fun _ => rfl) (fun _ => rfl)]
    rcases fin_cases n with ⟨h1, h2⟩ | ⟨h1, h2⟩ <;> rw [h1, h2] <;> decide

/-! ## Components -/

theorem coupler_scatter (k wl : ℝ) (f : ℕ → ℂ) :
    ∑ j : Fin 4, scattering (.coupler k) wl (0 : Fin 4) j * f j = √(1 - k) * f 1 + Complex.I * √k * f 2 ∧
    ∑ j : Fin 4, scattering (.coupler k) wl (1 : Fin 4) j * f j = √(1 - k) * f 0 + Complex.I * √k * f 3 ∧
    ∑ j : Fin 4, scattering (.coupler k) wl (2 : Fin 4) j * f j = Complex.I * √k * f 0 + √(1 - k) * f 3 ∧
    ∑ j : Fin 4, scattering (.coupler k) wl (3 : Fin 4) j * f j = Complex.I * √k * f 1 + √(1 - k) * f 2 := by
  obtain ⟨h0, h1, h2, h3⟩ := coupler_sum k wl f
  exact ⟨(entry_sum (.coupler k) wl (0 : Fin 4) f).symm.trans h0, (entry_sum (.coupler k) wl (1 : Fin 4) f).symm.trans h1,
    (entry_sum (.coupler k) wl (2 : Fin 4) f).symm.trans h2, (entry_sum (.coupler k) wl (3 : Fin 4) f).symm.trans h3⟩

theorem wg_scatter (g : Wg) (wl : ℝ) (f : ℕ → ℂ) :
    ∑ j : Fin 2, scattering g.part wl (0 : Fin 2) j * f j = g.amp wl * f 1 ∧
    ∑ j : Fin 2, scattering g.part wl (1 : Fin 2) j * f j = g.amp wl * f 0 := by
  obtain ⟨h0, h1⟩ := wg_sum g wl f
  exact ⟨(entry_sum g.part wl (0 : Fin 2) f).symm.trans h0, (entry_sum g.part wl (1 : Fin 2) f).symm.trans h1⟩

theorem end_scatter (p : Part) (wl : ℝ) (h : isSource p = true ∨ isDetector p = true) (i : Fin p.n) (f : ℕ → ℂ) :
    ∑ j, scattering p wl i j * f j = 0 :=
  Finset.sum_eq_zero fun j _ => by rw [ends_dark p wl h, zero_mul]

end Crow
end PT
