import Verif.Proof.Names

/-! Proof support: networks whose modules are connected one after the other. -/

namespace PT
open Spec

theorem dedupFirst_append {α : Type} [DecidableEq α] (l l' : List α) :
    dedupFirst (l ++ l') = dedupFirst l ++ (dedupFirst l').filter fun a => decide (a ∉ l) := by
  induction l with
  | nil =>
    rw [List.nil_append]
    simp [dedupFirst]
  | cons a l ih =>
    rw [List.cons_append, dedupFirst, dedupFirst, ih, List.filter_append, List.filter_filter, List.cons_append]
    congr 2
    apply List.filter_congr
    intro b _
    rw [← Bool.decide_and, decide_eq_decide, List.mem_cons]
    tauto

theorem dedupFirst_pairs {α : Type} [DecidableEq α] {a b : α} (hab : a ≠ b) (n : ℕ) :
    dedupFirst ((List.range (n + 1)).flatMap fun _ => [a, b]) = [a, b] := by
  induction n with
  | zero =>
    have : (List.range (0 + 1)).flatMap (fun _ => [a, b]) = [a, b] := rfl
    rw [this]
    simp [dedupFirst, hab.symm]
  | succ n ih =>
    rw [List.range_succ, List.flatMap_append, dedupFirst_append, ih]
    have : [n + 1].flatMap (fun _ => [a, b]) = [a, b] := rfl
    rw [this]
    simp [dedupFirst, hab.symm]
    exact ⟨0, by omega⟩

theorem dedupFirst_chain {α : Type} [DecidableEq α] {f : ℕ → α} {c : ℕ → ℕ} (k : ℕ) (hc : ∀ i < k + 1, 0 < c i)
    (hf : ∀ i ≤ k + 1, ∀ j ≤ k + 1, f i = f j → i = j) :
    dedupFirst ((List.range (k + 1)).flatMap fun i => (List.range (c i)).flatMap fun _ => [f i, f (i + 1)]) =
      (List.range (k + 2)).map f := by
  induction k with
  | zero =>
    obtain ⟨m, hm⟩ : ∃ m, c 0 = m + 1 := ⟨c 0 - 1, by have := hc 0 (by omega); omega⟩
    have h : (List.range (0 + 1)).flatMap (fun i => (List.range (c i)).flatMap fun _ => [f i, f (i + 1)]) =
        (List.range (m + 1)).flatMap fun _ => [f 0, f 1] := by
      rw [← hm]
      simp [List.range_succ]
    rw [h, dedupFirst_pairs]
    · rfl
    · intro h
      have := hf 0 (by omega) 1 (by omega) h
      omega
  | succ k ih =>
    obtain ⟨m, hm⟩ : ∃ m, c (k + 1) = m + 1 := ⟨c (k + 1) - 1, by have := hc (k + 1) (by omega); omega⟩
    have hd := ih (fun i hi => hc i (by omega)) (fun i hi j hj => hf i (by omega) j (by omega))
    rw [List.range_succ (n := k + 1), List.flatMap_append, dedupFirst_append, hd, List.flatMap_cons, List.flatMap_nil,
      List.append_nil, hm, dedupFirst_pairs]
    · rw [List.range_succ (n := k + 1 + 1), List.map_append]
      congr 1
      have h1 : f (k + 1) ∈ (List.range (k + 1)).flatMap fun i => (List.range (c i)).flatMap fun _ => [f i, f (i + 1)] := by
        rw [← mem_dedupFirst, hd]
        exact List.mem_map.mpr ⟨k + 1, List.mem_range.mpr (by omega), rfl⟩
      have h2 : f (k + 1 + 1) ∉ (List.range (k + 1)).flatMap fun i => (List.range (c i)).flatMap fun _ => [f i, f (i + 1)] := by
        rw [← mem_dedupFirst, hd]
        intro h
        obtain ⟨j, hj, h⟩ := List.mem_map.mp h
        rw [List.mem_range] at hj
        have := hf j (by omega) (k + 1 + 1) (by omega) h
        omega
      rw [List.filter_cons_of_neg (by rw [decide_eq_true_eq]; exact not_not.mpr h1), List.filter_cons_of_pos (by rw [decide_eq_true_eq]; exact h2)]
      rfl
    · intro h
      have := hf (k + 1) (by omega) (k + 1 + 1) (by omega) h
      omega

/-- Modules connected one after the other. -/
def chainCs (K : ℕ) (cnt base : ℕ → ℕ) (f : ℕ → Str) : List Conn :=
  (List.range K).flatMap fun i => (List.range (cnt i)).map fun (j : ℕ) =>
    Conn.inner (f i) ((base i + j : ℕ) : ℤ) (f (i + 1)) (j : ℤ)

/-- Is port `j` of the `i`-th module connected? -/
def linked (K : ℕ) (cnt base : ℕ → ℕ) (i j : ℕ) : Bool :=
  decide (0 < i ∧ j < cnt (i - 1)) || decide (i < K ∧ base i ≤ j ∧ j < base i + cnt i)

/-- The ports that are left. -/
def chainOpen (K : ℕ) (cnt base sz : ℕ → ℕ) (f : ℕ → Str) : List (Str × ℤ) :=
  (List.range (K + 1)).flatMap fun i =>
    ((List.range (sz i)).filter fun j => !linked K cnt base i j).map fun (j : ℕ) => (f i, (j : ℤ))

theorem chain_names (K : ℕ) (cnt base : ℕ → ℕ) (f : ℕ → Str) : (chainCs K cnt base f).flatMap Conn.names =
    (List.range K).flatMap fun i => (List.range (cnt i)).flatMap fun _ => [f i, f (i + 1)] := by
  unfold chainCs
  rw [List.flatMap_assoc]
  congr 1
  funext i
  rw [List.flatMap_map]
  rfl

variable {P : Part → Prop} {K : ℕ} {f : ℕ → Str} {idx : Str → ℕ} {cnt base sz : ℕ → ℕ}

theorem chain_mentions (hK : 0 < K) (hidx : ∀ i ≤ K, idx (f i) = i) (hcnt : ∀ i < K, 0 < cnt i) :
    firstMentions (chainCs K cnt base f) = (List.range (K + 1)).map f := by
  obtain ⟨k, rfl⟩ : ∃ k, K = k + 1 := ⟨K - 1, by omega⟩
  rw [firstMentions_eq, chain_names, dedupFirst_chain k hcnt]
  intro i hi j hj h
  rw [← hidx i hi, ← hidx j hj, h]

theorem chain_endpoint (hidx : ∀ i ≤ K, idx (f i) = i) {i : ℕ} (hi : i ≤ K) (j : ℕ) :
    (f i, (j : ℤ)) ∈ endpoints (chainCs K cnt base f) ↔ linked K cnt base i j = true := by
  rw [mem_endpoints]
  simp only [chainCs, List.mem_flatMap, List.mem_map, List.mem_range, linked, Bool.or_eq_true, decide_eq_true_eq]
  constructor
  · rintro ⟨a, i1, b, j1, ⟨i', hi', j', hj', h⟩, he⟩
    simp only [Conn.inner.injEq] at h
    obtain ⟨rfl, rfl, rfl, rfl⟩ := h
    simp only [Prod.mk.injEq, Nat.cast_inj] at he
    rcases he with ⟨h1, rfl⟩ | ⟨h1, rfl⟩
    · have h2 := congrArg idx h1
      rw [hidx i hi, hidx i' (by omega)] at h2
      subst h2
      right
      omega
    · have h2 := congrArg idx h1
      rw [hidx i hi, hidx (i' + 1) (by omega)] at h2
      subst h2
      left
      exact ⟨by omega, hj'⟩
  · rintro (⟨h0, h1⟩ | ⟨h0, h1, h2⟩)
    · refine ⟨_, _, _, _, ⟨i - 1, by omega, j, h1, rfl⟩, .inr ?_⟩
      rw [Nat.sub_add_cancel h0]
    · refine ⟨_, _, _, _, ⟨i, h0, j - base i, by omega, rfl⟩, .inl ?_⟩
      rw [show base i + (j - base i) = j by omega]

theorem chain_open (hK : 0 < K) (hidx : ∀ i ≤ K, idx (f i) = i) (hcnt : ∀ i < K, 0 < cnt i) :
    chainOpen K cnt base sz f = (allPorts (firstMentions (chainCs K cnt base f)) (fun x => sz (idx x))).filter
      fun e => decide (e ∉ endpoints (chainCs K cnt base f)) := by
  rw [chain_mentions hK hidx hcnt, allPorts, List.flatMap_map, List.filter_flatMap, chainOpen]
  apply List.flatMap_congr
  intro i hi
  have hi : i ≤ K := by rw [List.mem_range] at hi; omega
  rw [List.filter_map, hidx i hi]
  congr 1
  apply List.filter_congr
  intro j _
  simp only [Function.comp_apply, chain_endpoint hidx hi, Bool.not_eq_true, Bool.decide_eq_false]

theorem chain_count (K : ℕ) (cnt base : ℕ → ℕ) (f : ℕ → Str) :
    (endpoints (chainCs K cnt base f)).length = 2 * ((List.range K).map cnt).sum := by
  unfold chainCs
  rw [endpoints_flatMap]
  induction K with
  | zero => rfl
  | succ K ih =>
    rw [List.range_succ, List.flatMap_append, List.length_append, ih, List.map_append, List.sum_append,
      List.flatMap_cons, List.flatMap_nil, List.append_nil, endpoints_map,
      length_flatMap_const _ _ 2 (by simp [Conn.ends])]
    simp
    omega

theorem chain_made (hK : 0 < K) (hidx : ∀ i ≤ K, idx (f i) = i) (hgood : ∀ i ≤ K, GoodName (f i))
    (hcnt : ∀ i < K, 0 < cnt i) {devs : ℕ → Dev}
    (hdev : ∀ i ≤ K, MadeOf P (devs i) ∧ (freePorts (devs i).comp).length = sz i) {conns : List Str}
    (hconns : conns = (chainCs K cnt base f).map Conn.text)
    (hcount : 2 * ((List.range K).map cnt).sum + (chainOpen K cnt base sz f).length ≤ ((List.range (K + 1)).map sz).sum) :
    ∃ d, mkDev none ((List.range (K + 1)).map fun i => (f i, devs i)) conns = .ok d ∧
      Made P ((List.range (K + 1)).map fun i => (f i, devs i)) (chainCs K cnt base f) (chainOpen K cnt base sz f) d := by
  have hnd : ((List.range (K + 1)).map f).Nodup := by
    rw [List.nodup_map_iff_inj_on List.nodup_range]
    intro i hi j hj h
    rw [List.mem_range] at hi hj
    rw [← hidx i (by omega), ← hidx j (by omega), h]
  have hplan : Plan ((List.range (K + 1)).map f) (fun x => sz (idx x)) (chainCs K cnt base f)
      (chainOpen K cnt base sz f) := by
    refine ⟨hnd, ?_, ?_, ?_⟩
    · intro x hx
      obtain ⟨i, hi, rfl⟩ := List.mem_map.mp hx
      exact hgood i (by rw [List.mem_range] at hi; omega)
    · intro x hx i hi
      by_cases he : (x, (i : ℤ)) ∈ endpoints (chainCs K cnt base f)
      · exact .inl he
      · right
        rw [chain_open hK hidx hcnt, List.mem_filter, mem_allPorts, chain_mentions hK hidx hcnt]
        exact ⟨⟨hx, i, hi, rfl⟩, by simpa using he⟩
    · rw [chain_count, List.map_map]
      refine le_of_le_of_eq hcount ?_
      congr 1
      apply List.map_congr_left
      intro i hi
      simp only [Function.comp_apply]
      rw [hidx i (by rw [List.mem_range] at hi; omega)]
  refine open_made none hplan hconns ?_ ?_ ?_ ?_ (chain_open hK hidx hcnt)
  · intro p hp
    obtain ⟨i, hi, rfl⟩ := List.mem_map.mp hp
    exact (hdev i (by rw [List.mem_range] at hi; omega)).1
  · intro x hx
    obtain ⟨i, hi, rfl⟩ := List.mem_map.mp hx
    have hi' : i ≤ K := by rw [List.mem_range] at hi; omega
    refine ⟨devs i, dictGet_of_mem ?_ (List.mem_map.mpr ⟨i, hi, rfl⟩), ?_⟩
    · rw [List.map_map]
      exact hnd
    · rw [hidx i hi', (hdev i hi').2]
  · unfold chainCs
    rw [outs_flatMap, List.flatMap_eq_nil_iff]
    intro i _
    rw [outs_map, List.flatMap_eq_nil_iff]
    intro j _
    rfl
  · intro h
    have h0 : Conn.inner (f 0) ((base 0 + 0 : ℕ) : ℤ) (f (0 + 1)) ((0 : ℕ) : ℤ) ∈ chainCs K cnt base f := by
      unfold chainCs
      exact List.mem_flatMap.mpr ⟨0, List.mem_range.mpr hK,
        List.mem_map.mpr ⟨0, List.mem_range.mpr (hcnt 0 hK), rfl⟩⟩
    rw [h] at h0
    cases h0

theorem chain_directed (hidx : ∀ i ≤ K, idx (f i) = i) {half : ℕ → ℕ} (hb : ∀ i < K, half i ≤ base i)
    (hc : ∀ i < K, cnt i ≤ half (i + 1)) :
    Directed (chainCs K cnt base f) (fun x j => decide (j < half (idx x))) idx := by
  intro a i b j h
  simp only [chainCs, List.mem_flatMap, List.mem_map, List.mem_range, Conn.inner.injEq] at h
  obtain ⟨k, hk, l, hl, rfl, rfl, rfl, rfl⟩ := h
  have h1 := hidx k (by omega)
  have h2 := hidx (k + 1) (by omega)
  have h3 := hb k hk
  have h4 := hc k hk
  refine ⟨base k + l, l, rfl, rfl, ?_, ?_, ?_⟩
  · simp only [h1, h2]
    rw [decide_eq_false (by omega), decide_eq_true (by omega)]
    decide
  · intro _
    rw [h1, h2]
    omega
  · intro h
    simp only [h2, decide_eq_false_iff_not] at h
    omega

theorem range_filter_lt (a b : ℕ) (p : ℕ → Bool) (h1 : ∀ j < a, p j = true) (h2 : ∀ j, a ≤ j → j < a + b → p j = false) :
    (List.range (a + b)).filter p = List.range a := by
  rw [List.range_add, List.filter_append, List.filter_eq_self.mpr, List.filter_eq_nil_iff.mpr, List.append_nil]
  · intro x hx
    obtain ⟨k, hk, rfl⟩ := List.mem_map.mp hx
    rw [List.mem_range] at hk
    rw [h2 _ (by omega) (by omega)]
    simp
  · intro x hx
    exact h1 x (List.mem_range.mp hx)

theorem range_filter_ge (a b : ℕ) (p : ℕ → Bool) (h1 : ∀ j < a, p j = false) (h2 : ∀ j, a ≤ j → j < a + b → p j = true) :
    (List.range (a + b)).filter p = (List.range b).map (a + ·) := by
  rw [List.range_add, List.filter_append, List.filter_eq_nil_iff.mpr, List.filter_eq_self.mpr, List.nil_append]
  · intro x hx
    obtain ⟨k, hk, rfl⟩ := List.mem_map.mp hx
    rw [List.mem_range] at hk
    exact h2 _ (by omega) (by omega)
  · intro x hx
    rw [h1 x (List.mem_range.mp hx)]
    simp

end PT
