import Verif.Spec.Topology
import Verif.Proof.Str

/-! Lemmas about `set_C`, `set_port_order` and network construction. -/

namespace PT
open Spec

/-! ### Text of connections -/

theorem Spec.Conn.text_eq (c : Conn) : c.text = joinColon (match c with
    | .inner a i b j => [a, intStr i, b, intStr j]
    | .outer a i p => [a, intStr i, intStr p]) := by
  cases c <;> simp [Conn.text, joinColon, List.intercalate, List.intersperse]

theorem splitColon_inner {a b : Str} (i j : ℤ) (ha : ':' ∉ a) (hb : ':' ∉ b) :
    splitColon (Conn.inner a i b j).text = [a, intStr i, b, intStr j] := by
  rw [Conn.text_eq]
  apply splitColon_join _ (by simp)
  intro s hs
  simp only [List.mem_cons, List.not_mem_nil, or_false] at hs
  rcases hs with rfl | rfl | rfl | rfl
  exacts [ha, intStr_noColon _, hb, intStr_noColon _]

theorem splitColon_outer {a : Str} (i p : ℤ) (ha : ':' ∉ a) :
    splitColon (Conn.outer a i p).text = [a, intStr i, intStr p] := by
  rw [Conn.text_eq]
  apply splitColon_join _ (by simp)
  intro s hs
  simp only [List.mem_cons, List.not_mem_nil, or_false] at hs
  rcases hs with rfl | rfl | rfl
  exacts [ha, intStr_noColon _, intStr_noColon _]

theorem stripConn_text {c : Conn} (h : ∀ x ∈ c.names, GoodName x) : stripConn c.text = c.text := by
  cases c with
  | inner a i b j =>
    have ha := h a (by simp [Conn.names])
    have hb := h b (by simp [Conn.names])
    unfold stripConn
    rw [splitColon_inner i j ha.1 hb.1, Conn.text_eq]
    simp [ha.2.1, hb.2.1, intStr_strip]
  | outer a i p =>
    have ha := h a (by simp [Conn.names])
    unfold stripConn
    rw [splitColon_outer i p ha.1, Conn.text_eq]
    simp [ha.2.1, intStr_strip]

theorem map_stripConn_text {cs : List Conn} (h : GoodConns cs) :
    (cs.map Conn.text).map stripConn = cs.map Conn.text := by
  rw [List.map_map]
  exact List.map_congr_left fun c hc => stripConn_text (h c hc)

theorem dedupFirst_foldl {α : Type} [DecidableEq α] (l : List α) : ∀ acc : List α,
    l.foldl (fun acc x => if x ∈ acc then acc else acc ++ [x]) acc =
      acc ++ (dedupFirst l).filter (· ∉ acc) := by
  induction l with
  | nil => intro acc; simp [dedupFirst]
  | cons a l ih =>
    intro acc
    rw [List.foldl_cons, ih]
    by_cases ha : a ∈ acc
    · simp only [ha, if_true, dedupFirst, List.filter_cons, not_true, decide_false,
        Bool.false_eq_true, if_false, List.filter_filter]
      congr 1
      apply List.filter_congr
      intro x _
      by_cases hx : x = a
      · simp [hx, ha]
      · simp [hx]
    · simp only [ha, if_false, dedupFirst, List.filter_cons, not_false_eq_true, decide_true,
        if_true, List.filter_filter, List.append_assoc, List.cons_append, List.nil_append]
      congr 2
      apply List.filter_congr
      intro x _
      by_cases hx : x = a <;> simp [hx]

theorem firstMentions_eq (cs : List Conn) : firstMentions cs = dedupFirst (cs.flatMap Conn.names) := by
  unfold firstMentions
  have := dedupFirst_foldl (cs.flatMap Conn.names) []
  simp only [List.nil_append, List.not_mem_nil, not_false_eq_true, decide_true, List.filter_true] at this
  rw [← this]
  congr 1
  funext acc x
  split_ifs <;> rfl

theorem usedNames_text {cs : List Conn} (h : GoodConns cs) :
    usedNames (cs.map Conn.text) = firstMentions cs := by
  rw [firstMentions_eq]
  unfold usedNames
  congr 1
  induction cs with
  | nil => rfl
  | cons c cs ih =>
    have ih' := ih (fun d hd => h d (by simp [hd]))
    have hc := h c (by simp)
    simp only [List.map_cons, List.flatMap_cons, List.filter_append, ih']
    congr 1
    cases c with
    | inner a i b j =>
      have ha := hc a (by simp [Conn.names])
      have hb := hc b (by simp [Conn.names])
      rw [splitColon_inner i j ha.1 hb.1]
      simp [List.filter_cons, pyInt_intStr, ha.2.2, hb.2.2, Conn.names]
    | outer a i p =>
      have ha := hc a (by simp [Conn.names])
      rw [splitColon_outer i p ha.1]
      simp [List.filter_cons, pyInt_intStr, ha.2.2, Conn.names]

theorem parseInternal_inner (l : Comps) {a b : Str} (i j : ℤ) (ha : GoodName a) (hb : GoodName b) :
    parseInternal l (Conn.inner a i b j).text = (internalPorts l a i b j).map some := by
  unfold parseInternal
  rw [splitColon_inner i j ha.1 hb.1]
  simp [intOf, pyInt_intStr, Except.bind]

theorem parseInternal_outer (l : Comps) {a : Str} (i p : ℤ) (ha : GoodName a) :
    parseInternal l (Conn.outer a i p).text = .ok none := by
  unfold parseInternal
  rw [splitColon_outer i p ha.1]
  simp

theorem parseExternal_outer (l : Comps) {a : Str} (i p : ℤ) (ha : GoodName a) :
    parseExternal l (Conn.outer a i p).text = (globalPort l a i).map fun g => some (g, p) := by
  unfold parseExternal
  rw [splitColon_outer i p ha.1]
  simp [intOf, pyInt_intStr, Except.bind]

theorem parseExternal_inner (l : Comps) {a b : Str} (i j : ℤ) (ha : GoodName a) (hb : GoodName b) :
    parseExternal l (Conn.inner a i b j).text = .ok none := by
  unfold parseExternal
  rw [splitColon_inner i j ha.1 hb.1]
  simp

/-! ### Blocks -/

theorem locate_iff {l : Comps} {x : Str} {s : ℕ} {c : Comp} :
    locate l x = some (s, c) ↔ Block l x c s := by
  induction l generalizing s with
  | nil => simp [locate, Block]
  | cons p l ih =>
    obtain ⟨m, d⟩ := p
    simp only [locate]
    split
    · rename_i h
      subst h
      simp only [Option.some.injEq, Prod.mk.injEq]
      constructor
      · rintro ⟨rfl, rfl⟩; exact ⟨[], l, rfl, by simp, rfl⟩
      · rintro ⟨pre, post, h1, h2, h3⟩
        cases pre with
        | nil => simp only [List.nil_append, List.cons.injEq, Prod.mk.injEq] at h1
                 exact ⟨by simp [h3, width], h1.1.2⟩
        | cons q pre =>
          simp only [List.cons_append, List.cons.injEq] at h1
          rw [← h1.1] at h2
          simp at h2
    · rename_i h
      simp only [Option.map_eq_some_iff, Prod.mk.injEq, Prod.exists]
      constructor
      · rintro ⟨s', c', hs, rfl, rfl⟩
        obtain ⟨pre, post, rfl, h2, rfl⟩ := ih.mp hs
        refine ⟨(m, d) :: pre, post, rfl, ?_, by simp [width]⟩
        simp only [List.map_cons, List.mem_cons, not_or]
        exact ⟨fun e => h e.symm, h2⟩
      · rintro ⟨pre, post, h1, h2, h3⟩
        cases pre with
        | nil => simp only [List.nil_append, List.cons.injEq, Prod.mk.injEq] at h1
                 exact absurd h1.1.1 h
        | cons q pre =>
          simp only [List.cons_append, List.cons.injEq] at h1
          obtain ⟨rfl, rfl⟩ := h1
          simp only [List.map_cons, List.mem_cons, not_or] at h2
          exact ⟨width pre, c, ih.mpr ⟨pre, post, rfl, h2.2, rfl⟩, by simp [h3, width], rfl⟩

theorem locate_none {l : Comps} {x : Str} : locate l x = none ↔ x ∉ l.map Prod.fst := by
  induction l with
  | nil => simp [locate]
  | cons p l ih =>
    obtain ⟨m, d⟩ := p
    simp only [locate]
    split
    · rename_i h; simp [h]
    · rename_i h
      simp only [Option.map_eq_none_iff, ih, List.map_cons, List.mem_cons, not_or]
      exact ⟨fun h' => ⟨fun e => h e.symm, h'⟩, fun h' => h'.2⟩

theorem pyIndex_iff {l : List ℕ} {i : ℤ} {p : ℕ} : pyIndex l i = some p ↔ At l i p := by
  unfold pyIndex At
  split
  · rename_i h
    constructor
    · intro h'; exact .inl ⟨i.toNat, by omega, h'⟩
    · rintro (⟨k, rfl, hk⟩ | ⟨k, hk, hk', -⟩)
      · simpa using hk
      · omega
  · rename_i h
    split
    · rename_i h2
      constructor
      · intro h'; exact .inr ⟨(i + l.length).toNat, by omega, by omega, h'⟩
      · rintro (⟨k, rfl, hk⟩ | ⟨k, rfl, hk', h3⟩)
        · omega
        · simpa using h3
    · rename_i h2
      simp only [reduceCtorEq, false_iff, not_or]
      constructor
      · rintro ⟨k, rfl, -⟩; omega
      · rintro ⟨k, hk, -, -⟩; omega

theorem Spec.At.mem {l : List ℕ} {i : ℤ} {p : ℕ} (h : At l i p) : p ∈ l := by
  rcases h with ⟨k, -, h⟩ | ⟨k, -, -, h⟩ <;> exact List.mem_of_getElem? h

theorem sum_pos_iff {n : ℕ} {f : ℕ → ℚ} (hf : ∀ k, f k = 0 ∨ f k = 1) :
    0 < ((List.range n).map f).sum ↔ ∃ k < n, f k ≠ 0 := by
  have h0 : ∀ k, 0 ≤ f k := fun k => by rcases hf k with h | h <;> rw [h] <;> norm_num
  constructor
  · intro h
    by_contra hc
    push Not at hc
    have : ((List.range n).map f).sum = 0 := by
      apply List.sum_eq_zero
      intro x hx
      obtain ⟨k, hk, rfl⟩ := List.mem_map.mp hx
      exact hc k (List.mem_range.mp hk)
    rw [this] at h; exact lt_irrefl _ h
  · rintro ⟨k, hk, hk'⟩
    have h1 : f k ≤ ((List.range n).map f).sum := by
      apply List.single_le_sum (fun x hx => ?_) _ (List.mem_map_of_mem (List.mem_range.mpr hk))
      obtain ⟨k, -, rfl⟩ := List.mem_map.mp hx
      exact h0 k
    have h2 : f k = 1 := by rcases hf k with h | h; exact absurd h hk'; exact h
    rw [h2] at h1
    linarith

theorem freeAt_iff {c : Comp} (h : ∀ i j, c.C i j = 0 ∨ c.C i j = 1) (i : ℕ) :
    c.freeAt i = true ↔ i < c.n ∧ Unconnected c i := by
  unfold Comp.freeAt Unconnected
  simp only [Bool.and_eq_true, decide_eq_true_eq, Bool.not_eq_true', Bool.or_eq_false_iff,
    decide_eq_false_iff_not, sum_pos_iff (fun k => h k i), sum_pos_iff (fun k => h i k)]
  constructor
  · rintro ⟨h1, h2, h3⟩
    push Not at h2 h3
    exact ⟨h1, fun k hk => ⟨h3 k hk, h2 k hk⟩⟩
  · rintro ⟨h1, h2⟩
    push Not
    exact ⟨h1, fun k hk => (h2 k hk).2, fun k hk => (h2 k hk).1⟩

theorem free_eq {c : Comp} (h : ∀ i j, c.C i j = 0 ∨ c.C i j = 1) : c.free = freePorts c := by
  unfold Comp.free freePorts
  apply List.filter_congr
  intro i _
  rw [Bool.eq_iff_iff, freeAt_iff h, decide_eq_true_eq]

/-- All children have a proper connection matrix. -/
def ChildrenOK (l : Comps) : Prop := ∀ p ∈ l, Reciprocal p.2.n p.2.C

theorem Spec.Block.mem {l : Comps} {x : Str} {c : Comp} {s : ℕ} (h : Block l x c s) : (x, c) ∈ l := by
  obtain ⟨pre, post, rfl, -, -⟩ := h; simp

theorem Spec.Block.le {l : Comps} {x : Str} {c : Comp} {s : ℕ} (h : Block l x c s) :
    s + c.n ≤ width l := by
  obtain ⟨pre, post, rfl, -, rfl⟩ := h
  simp [width]

theorem globalPort_iff {l : Comps} (hl : ChildrenOK l) {x : Str} {i : ℤ} {g : ℕ} :
    globalPort l x i = .ok g ↔ PortOf l x i g := by
  unfold globalPort PortOf
  cases h : locate l x with
  | none =>
    simp only [reduceCtorEq, false_iff, not_exists]
    rintro c s p ⟨hb, -⟩
    rw [← locate_iff, h] at hb; cases hb
  | some q =>
    obtain ⟨s, c⟩ := q
    have hb := locate_iff.mp h
    have hfree : c.free = freePorts c := free_eq (hl _ hb.mem).2.1
    simp only
    cases h' : pyIndex c.free i with
    | none =>
      simp only [reduceCtorEq, false_iff, not_exists]
      rintro c' s' p ⟨hb', hat, -⟩
      rw [← locate_iff, h] at hb'
      simp only [Option.some.injEq, Prod.mk.injEq] at hb'
      obtain ⟨rfl, rfl⟩ := hb'
      rw [← hfree, ← pyIndex_iff, h'] at hat; cases hat
    | some p =>
      simp only [Except.ok.injEq]
      constructor
      · rintro rfl; exact ⟨c, s, p, hb, by rw [← hfree, ← pyIndex_iff, h'], rfl⟩
      · rintro ⟨c', s', p', hb', hat, rfl⟩
        rw [← locate_iff, h] at hb'
        simp only [Option.some.injEq, Prod.mk.injEq] at hb'
        obtain ⟨rfl, rfl⟩ := hb'
        rw [← hfree, ← pyIndex_iff, h'] at hat
        simp only [Option.some.injEq] at hat
        rw [hat]

theorem Spec.PortOf.lt {l : Comps} {x : Str} {i : ℤ} {g : ℕ} (h : PortOf l x i g) : g < width l := by
  obtain ⟨c, s, p, hb, hat, rfl⟩ := h
  have hp := hat.mem
  unfold freePorts at hp
  rw [List.mem_filter, decide_eq_true_eq] at hp
  have := hb.le
  omega

theorem internalPorts_ok {l : Comps} {a b : Str} {i j : ℤ} {x y : ℕ}
    (h : internalPorts l a i b j = .ok (x, y)) :
    globalPort l a i = .ok x ∧ globalPort l b j = .ok y ∧ ¬ (a = b ∧ i = j) := by
  unfold internalPorts at h
  split at h
  · cases h
  · rename_i hne
    cases h1 : portTooHigh l a i <;> rw [h1] at h <;> simp only [Except.bind] at h
    · cases h
    cases h2 : portTooHigh l b j <;> rw [h2] at h <;> simp only at h
    · cases h
    cases h3 : globalPort l a i <;> rw [h3] at h <;> simp only at h
    · cases h
    cases h4 : globalPort l b j <;> rw [h4] at h <;> simp only at h
    · cases h
    simp only [Except.ok.injEq, Prod.mk.injEq] at h
    obtain ⟨rfl, rfl⟩ := h
    exact ⟨rfl, rfl, hne⟩

/-! ### The connection matrix -/

theorem foldl_connect (ps : List (ℕ × ℕ)) : ∀ (C : ℕ → ℕ → ℚ) (a b : ℕ),
    ps.foldl (fun C p => connect C p.1 p.2) C a b =
      if ∃ p ∈ ps, (a = p.1 ∧ b = p.2) ∨ (a = p.2 ∧ b = p.1) then 1 else C a b := by
  induction ps with
  | nil => intro C a b; simp
  | cons q ps ih =>
    intro C a b
    rw [List.foldl_cons, ih]
    by_cases h : ∃ p ∈ ps, (a = p.1 ∧ b = p.2) ∨ (a = p.2 ∧ b = p.1)
    · have h' : ∃ p ∈ q :: ps, (a = p.1 ∧ b = p.2) ∨ (a = p.2 ∧ b = p.1) := by
        obtain ⟨p, hp, h⟩ := h; exact ⟨p, by simp [hp], h⟩
      rw [if_pos h, if_pos h']
    · rw [if_neg h]
      unfold connect
      by_cases hq : (a = q.1 ∧ b = q.2) ∨ (a = q.2 ∧ b = q.1)
      · rw [if_pos hq, if_pos ⟨q, by simp, hq⟩]
      · rw [if_neg hq, if_neg]
        rintro ⟨p, hp, h'⟩
        rcases List.mem_cons.mp hp with rfl | hp
        · exact hq h'
        · exact h ⟨p, hp, h'⟩

theorem blockC_symm {l : Comps} (hl : ChildrenOK l) : ∀ i j, blockC l i j = blockC l j i := by
  induction l with
  | nil => intro i j; rfl
  | cons p l ih =>
    intro i j
    obtain ⟨m, c⟩ := p
    have hc := (hl (m, c) (by simp)).1
    have ih' := ih (fun p hp => hl p (by simp [hp]))
    simp only [blockC]
    by_cases hi : i < c.n <;> by_cases hj : j < c.n <;> simp only [hi, hj, if_true, if_false]
    · exact hc i j
    · exact ih' _ _

theorem blockC_01 {l : Comps} (hl : ChildrenOK l) : ∀ i j, blockC l i j = 0 ∨ blockC l i j = 1 := by
  induction l with
  | nil => intro i j; exact .inl rfl
  | cons p l ih =>
    intro i j
    obtain ⟨m, c⟩ := p
    have hc := (hl (m, c) (by simp)).2.1
    have ih' := ih (fun p hp => hl p (by simp [hp]))
    simp only [blockC]
    by_cases hi : i < c.n <;> by_cases hj : j < c.n <;> simp only [hi, hj, if_true, if_false]
    · exact hc i j
    · exact .inl trivial
    · exact .inl trivial
    · exact ih' _ _

theorem blockC_lt {l : Comps} (hl : ChildrenOK l) : ∀ i j, blockC l i j ≠ 0 → i < width l ∧ j < width l := by
  induction l with
  | nil => intro i j h; exact absurd rfl h
  | cons p l ih =>
    intro i j
    obtain ⟨m, c⟩ := p
    have ih' := ih (fun p hp => hl p (by simp [hp])) (i - c.n) (j - c.n)
    simp only [blockC, width, List.map_cons, List.sum_cons] at ih' ⊢
    by_cases hi : i < c.n <;> by_cases hj : j < c.n <;> simp only [hi, hj, if_true, if_false]
    · intro _; omega
    · intro h; exact absurd rfl h
    · intro h; exact absurd rfl h
    · intro h; have := ih' h; omega

theorem blockC_iff {l : Comps} (hnd : (l.map Prod.fst).Nodup) (i j : ℕ) :
    blockC l i j ≠ 0 ↔ InsideConn l i j := by
  induction l generalizing i j with
  | nil => simp [blockC, InsideConn, Block]
  | cons p l ih =>
    obtain ⟨m, c⟩ := p
    simp only [List.map_cons, List.nodup_cons] at hnd
    have ih' := ih hnd.2
    simp only [blockC]
    have key : InsideConn ((m, c) :: l) i j ↔
        (i < c.n ∧ j < c.n ∧ c.C i j ≠ 0) ∨ (c.n ≤ i ∧ c.n ≤ j ∧ InsideConn l (i - c.n) (j - c.n)) := by
      constructor
      · rintro ⟨x, d, s, i', j', ⟨pre, post, h1, h2, rfl⟩, hi, hj, rfl, rfl, hC⟩
        cases pre with
        | nil =>
          simp only [List.nil_append, List.cons.injEq, Prod.mk.injEq] at h1
          obtain ⟨⟨rfl, rfl⟩, rfl⟩ := h1
          left; simp only [width, List.map_nil, List.sum_nil, zero_add]; exact ⟨hi, hj, hC⟩
        | cons q pre =>
          simp only [List.cons_append, List.cons.injEq] at h1
          obtain ⟨rfl, rfl⟩ := h1
          right
          simp only [List.map_cons, List.mem_cons, not_or] at h2
          simp only [width, List.map_cons, List.sum_cons]
          refine ⟨by omega, by omega, x, d, width pre, i', j', ⟨pre, post, rfl, h2.2, rfl⟩, hi, hj, ?_, ?_, hC⟩ <;>
            (simp only [width]; omega)
      · rintro (⟨hi, hj, hC⟩ | ⟨hi, hj, x, d, s, i', j', ⟨pre, post, rfl, h2, rfl⟩, hi', hj', h3, h4, hC⟩)
        · exact ⟨m, c, 0, i, j, ⟨[], l, rfl, by simp, rfl⟩, hi, hj, by simp, by simp, hC⟩
        · refine ⟨x, d, c.n + width pre, i', j', ⟨(m, c) :: pre, post, rfl, ?_, by simp [width]⟩, hi', hj', by omega, by omega, hC⟩
          simp only [List.map_cons, List.mem_cons, not_or]
          refine ⟨?_, h2⟩
          rintro rfl
          exact hnd.1 (by simp)
    rw [key]
    by_cases hi : i < c.n <;> by_cases hj : j < c.n <;> simp only [hi, hj, if_true, if_false]
    · constructor
      · intro h; exact .inl ⟨trivial, trivial, h⟩
      · rintro (⟨-, -, h⟩ | ⟨h, -⟩)
        · exact h
        · omega
    · simp only [ne_eq, not_true, false_and, and_false, false_or, false_iff]
      rintro ⟨h, -⟩; omega
    · simp only [ne_eq, not_true, false_and, and_false, false_or, false_iff]
      rintro ⟨-, h, -⟩; omega
    · rw [ih']
      simp only [false_and, and_false, false_or]
      exact ⟨fun h => ⟨by omega, by omega, h⟩, fun h => h.2.2⟩

theorem setC_ok {l : Comps} {conns : List Str} {C : ℕ → ℕ → ℚ} (h : setC l conns = .ok C) :
    ∃ ps : List (Option (ℕ × ℕ)), List.Forall₂ (fun s p => parseInternal l s = .ok p) conns ps ∧
      ∀ a b, C a b = if ∃ p ∈ ps.filterMap id, (a = p.1 ∧ b = p.2) ∨ (a = p.2 ∧ b = p.1) then 1
        else blockC l a b := by
  unfold setC at h
  cases hm : mapE (parseInternal l) conns with
  | error e => rw [hm] at h; cases h
  | ok ps =>
    rw [hm] at h
    simp only [Except.map, Except.ok.injEq] at h
    refine ⟨ps, mapE_ok.mp hm, fun a b => ?_⟩
    rw [← h, foldl_connect]

theorem forall₂_mem_right {α β : Type} {R : α → β → Prop} {l : List α} {r : List β}
    (h : List.Forall₂ R l r) {b : β} (hb : b ∈ r) : ∃ a ∈ l, R a b := by
  induction h with
  | nil => cases hb
  | cons h1 h2 ih =>
    rcases List.mem_cons.mp hb with rfl | hb
    · exact ⟨_, by simp, h1⟩
    · obtain ⟨a, ha, h⟩ := ih hb; exact ⟨a, by simp [ha], h⟩

theorem forall₂_mem_left {α β : Type} {R : α → β → Prop} {l : List α} {r : List β}
    (h : List.Forall₂ R l r) {a : α} (ha : a ∈ l) : ∃ b ∈ r, R a b := by
  induction h with
  | nil => cases ha
  | cons h1 h2 ih =>
    rcases List.mem_cons.mp ha with rfl | ha
    · exact ⟨_, by simp, h1⟩
    · obtain ⟨b, hb, h⟩ := ih ha; exact ⟨b, by simp [hb], h⟩

theorem parseInternal_ok {l : Comps} {s : Str} {x y : ℕ} (h : parseInternal l s = .ok (some (x, y))) :
    ∃ a i b j, globalPort l a i = .ok x ∧ globalPort l b j = .ok y := by
  unfold parseInternal at h
  split at h
  · rename_i a i b j _
    cases h1 : intOf i <;> rw [h1] at h <;> simp only [Except.bind] at h
    · cases h
    cases h2 : intOf j <;> rw [h2] at h <;> simp only at h
    · cases h
    rename_i zi zj
    cases h3 : internalPorts l a zi b zj with
    | error e => rw [h3] at h; cases h
    | ok q =>
      rw [h3] at h
      simp only [Except.map, Except.ok.injEq, Option.some.injEq] at h
      subst h
      exact ⟨a, zi, b, zj, (internalPorts_ok h3).1, (internalPorts_ok h3).2.1⟩
  · split at h <;> simp at h

theorem setC_reciprocal {l : Comps} (hl : ChildrenOK l) {conns : List Str} {C : ℕ → ℕ → ℚ}
    (h : setC l conns = .ok C) : Reciprocal (width l) C := by
  obtain ⟨ps, hps, hC⟩ := setC_ok h
  refine ⟨fun i j => ?_, fun i j => ?_, fun i j hij => ?_⟩
  · rw [hC, hC, blockC_symm hl i j]
    congr 1
    simp only [eq_iff_iff]
    constructor <;> rintro ⟨p, hp, h⟩ <;> exact ⟨p, hp, by tauto⟩
  · rw [hC]; split
    · exact .inr rfl
    · exact blockC_01 hl i j
  · rw [hC] at hij
    split at hij
    · rename_i hex
      obtain ⟨p, hp, h⟩ := hex
      rw [List.mem_filterMap] at hp
      obtain ⟨q, hq, hqp⟩ := hp
      simp only [id] at hqp
      subst hqp
      obtain ⟨s, -, hs⟩ := forall₂_mem_right hps hq
      obtain ⟨a, ia, b, jb, h1, h2⟩ := parseInternal_ok (x := p.1) (y := p.2) hs
      have l1 := ((globalPort_iff hl).mp h1).lt
      have l2 := ((globalPort_iff hl).mp h2).lt
      rcases h with ⟨rfl, rfl⟩ | ⟨rfl, rfl⟩
      · exact ⟨l1, l2⟩
      · exact ⟨l2, l1⟩
    · exact blockC_lt hl i j hij

/-! ### Construction -/

theorem netBuffers_ok {name : Option Str} {l : Comps} {conns : List Str} {c : Comp}
    (h : netBuffers name l conns = .ok c) :
    setPortOrder l conns = .ok c.portOrder ∧ setC l conns = .ok c.C ∧ c.n = width l ∧ c.name = name ∧
      c.src = l.flatMap (·.2.src) ∧ c.det = l.flatMap (·.2.det) ∧ c.act = l.flatMap (·.2.act) ∧
      c.isNet = true ∧ c.check = .ok () := by
  unfold netBuffers at h
  cases h1 : setPortOrder l conns with
  | error e => rw [h1] at h; cases h
  | ok po =>
    cases h2 : setC l conns with
    | error e => rw [h1, h2] at h; cases h
    | ok C =>
      rw [h1, h2] at h
      simp only [Except.bind] at h
      generalize hc : (⟨name, l.numPorts, C, po, l.flatMap (·.2.src), l.flatMap (·.2.det),
        l.flatMap (·.2.act), true⟩ : Comp) = c' at h
      cases h3 : c'.check with
      | error e => rw [h3] at h; cases h
      | ok u =>
        rw [h3] at h
        simp only [Except.map, Except.ok.injEq] at h
        subst h
        refine ⟨?_, ?_, ?_, ?_, ?_, ?_, ?_, ?_, ?_⟩ <;> first | exact h3 | (subst hc; rfl)

theorem pickComps_ok {modules : Comps} {names : List Str} {l : Comps}
    (h : pickComps modules names = .ok l) : l.map Prod.fst = names ∧
      ∀ p ∈ l, ∃ d, dictGet p.1 modules = some d ∧ p.2 = { d with name := some p.1 } := by
  unfold pickComps at h
  rw [mapE_ok] at h
  induction h with
  | nil => simp
  | @cons x q names l hx _ ih =>
    cases hd : dictGet x modules with
    | none => rw [hd] at hx; cases hx
    | some d =>
      rw [hd] at hx
      simp only [Except.ok.injEq] at hx
      subst hx
      refine ⟨by simp [ih.1], ?_⟩
      intro p hp
      rcases List.mem_cons.mp hp with rfl | hp
      · exact ⟨d, hd, rfl⟩
      · exact ih.2 p hp

theorem mkNet_ok {name : Option Str} {modules : Comps} {conns : List Str} {c : Comp}
    (h : mkNet name modules conns = .ok c) :
    ∃ l, pickComps modules (usedNames (conns.map stripConn)) = .ok l ∧
      netBuffers name l (conns.map stripConn) = .ok c := by
  unfold mkNet at h
  cases h1 : pickComps modules (usedNames (conns.map stripConn)) with
  | error e => rw [h1] at h; cases h
  | ok l => rw [h1] at h; exact ⟨l, rfl, h⟩

theorem built_reciprocal {c : Comp} (h : Built c) : Reciprocal c.n c.C := by
  induction h with
  | leaf n src det act _ _ _ _ =>
    exact ⟨fun _ _ => rfl, fun _ _ => .inl rfl, fun _ _ h => absurd rfl h⟩
  | soa =>
    refine ⟨fun i j => ?_, fun i j => ?_, fun i j h => ?_⟩
    · simp only [soa]; congr 1; rw [and_comm]
    · simp only [soa]; split <;> simp
    · simp only [soa] at h ⊢; split at h
      · omega
      · exact absurd rfl h
  | named c x _ ih => exact ih
  | net name modules conns c hm hc ih =>
    obtain ⟨l, h1, h2⟩ := mkNet_ok hc
    obtain ⟨-, hC, hn, -⟩ := netBuffers_ok h2
    rw [hn]
    refine setC_reciprocal (fun p hp => ?_) hC
    obtain ⟨d, hd, hp2⟩ := (pickComps_ok h1).2 p hp
    rw [hp2]
    exact ih _ (dictGet_mem hd)

end PT
