import Verif.Props.Topology

/-!
# C16, C24, C19, C17, C18: rejection of ill-formed connections and port numbering
-/

namespace PT
open Spec

/-! ## C16 Ill-formed connections are rejected -/

theorem pickComps_missing {modules : Comps} {names : List Str} {x : Str} (hx : x ∈ names)
    (hno : x ∉ modules.map Prod.fst) : pickComps modules names = .error .keyError := by
  have hx' : dictGet x modules = none := dictGet_none.mpr hno
  have : ∃ e', pickComps modules names = .error e' := by
    unfold pickComps
    exact mapE_of_error hx (e := .keyError) (by simp [hx'])
  obtain ⟨e', he'⟩ := this
  have : e' = .keyError := by
    unfold pickComps at he'
    obtain ⟨y, -, hy⟩ := mapE_error he'
    split at hy
    · simpa using hy.symm
    · cases hy
  rw [he', this]

/-- C16: a connection that mentions a component the network does not have is rejected with
`KeyError`, wherever it stands. -/
theorem C16_unknown_component (name : Option Str) (modules : Comps) (cs : List Conn)
    (hg : GoodConns cs) (d : Conn) (hd : d ∈ cs) (x : Str) (hx : x ∈ d.names)
    (hno : x ∉ modules.map Prod.fst) : mkNet name modules (cs.map Conn.text) = .error .keyError := by
  unfold mkNet
  rw [map_stripConn_text hg, usedNames_text hg]
  have hmem : x ∈ firstMentions cs := by
    rw [firstMentions_eq, mem_dedupFirst, List.mem_flatMap]; exact ⟨d, hd, hx⟩
  rw [pickComps_missing hmem hno]; rfl

/-- C16: the same for any connection string at all: a part that is neither an integer nor the name of a
component (a misspelt name, or a port that is not a number) is rejected with `KeyError`. -/
theorem C16_bad_part (name : Option Str) (modules : Comps) (conns : List Str) (s : Str) (hs : s ∈ conns)
    (x : Str) (hx : x ∈ splitColon (stripConn s)) (hi : pyInt x = none)
    (hno : x ∉ modules.map Prod.fst) : mkNet name modules conns = .error .keyError := by
  unfold mkNet
  have hmem : x ∈ usedNames (conns.map stripConn) := by
    unfold usedNames
    rw [mem_dedupFirst, List.mem_filter, List.mem_flatMap]
    exact ⟨⟨_, List.mem_map_of_mem hs, hx⟩, by simp [hi]⟩
  rw [pickComps_missing hmem hno]; rfl

theorem mapE_append_error {α β : Type} {f : α → Except PyErr β} {l : List α} {r : List β} {a : α} {e : PyErr}
    (h : mapE f l = .ok r) (ha : f a = .error e) : mapE f (l ++ [a]) = .error e := by
  induction l generalizing r with
  | nil => simp [mapE, ha]
  | cons b l ih =>
    simp only [mapE, List.cons_append] at h ⊢
    cases hb : f b with
    | error e' => rw [hb] at h; cases h
    | ok v =>
      rw [hb] at h
      cases hl : mapE f l with
      | error e' => rw [hl] at h; cases h
      | ok vs => simp [ih hl]

theorem mapE_append_ok {α β : Type} {f : α → Except PyErr β} {l : List α} {r : List β} {a : α} {v : β}
    (h : mapE f l = .ok r) (ha : f a = .ok v) : mapE f (l ++ [a]) = .ok (r ++ [v]) := by
  induction l generalizing r with
  | nil => simp only [mapE, Except.ok.injEq] at h; subst h; simp [mapE, ha]
  | cons b l ih =>
    simp only [mapE, List.cons_append] at h ⊢
    cases hb : f b with
    | error e' => rw [hb] at h; cases h
    | ok w =>
      rw [hb] at h
      cases hl : mapE f l with
      | error e' => rw [hl] at h; cases h
      | ok vs =>
        rw [hl] at h
        simp only [Except.ok.injEq] at h
        subst h
        simp [ih hl]

theorem firstMentions_append {cs : List Conn} {d : Conn} (h : ∀ x ∈ d.names, x ∈ firstMentions cs) :
    firstMentions (cs ++ [d]) = firstMentions cs := by
  have h' : ∀ (xs acc : List Str), (∀ x ∈ xs, x ∈ acc) →
      xs.foldl (fun acc x => if x ∈ acc then acc else acc ++ [x]) acc = acc := by
    intro xs
    induction xs with
    | nil => intro acc _; rfl
    | cons x xs ih =>
      intro acc hx
      rw [List.foldl_cons, if_pos (hx x (by simp))]
      exact ih acc fun y hy => hx y (by simp [hy])
  unfold firstMentions at h ⊢
  rw [List.flatMap_append, List.foldl_append]
  apply h'
  simpa using h

/-- An accepted network, extended by one more connection between components already in use: what is
evaluated. -/
theorem mkNet_extend {name : Option Str} {modules : Comps} {cs : List Conn} {c : Comp} {d : Conn}
    (hg : GoodConns cs) (hgd : ∀ x ∈ d.names, GoodName x)
    (h : mkNet name modules (cs.map Conn.text) = .ok c) (hd : ∀ x ∈ d.names, x ∈ firstMentions cs) :
    ∃ l, Layout modules cs l ∧
      mkNet name modules ((cs ++ [d]).map Conn.text) = netBuffers name l (cs.map Conn.text ++ [d.text]) ∧
      netBuffers name l (cs.map Conn.text) = .ok c := by
  have hg' : GoodConns (cs ++ [d]) := by
    intro e he
    rcases List.mem_append.mp he with he | he
    · exact hg e he
    · rw [List.mem_singleton.mp he]; exact hgd
  obtain ⟨l, h1, h2⟩ := mkNet_ok h
  have hl := layout_of_pick hg h1
  rw [map_stripConn_text hg] at h2
  refine ⟨l, hl, ?_, h2⟩
  unfold mkNet
  rw [map_stripConn_text hg', usedNames_text hg', firstMentions_append hd]
  rw [map_stripConn_text hg, usedNames_text hg] at h1
  rw [h1]
  simp [Except.bind]

/-- A port number that is too high for component `a`. -/
def Spec.TooHigh (modules : Comps) (a : Str) (k : ℤ) : Prop :=
  ∃ d, dictGet a modules = some d ∧ ((freePorts d).length : ℤ) ≤ k

theorem layout_locate {modules l : Comps} {cs : List Conn} (hl : Layout modules cs l) {a : Str} {d : Comp}
    (ha : a ∈ firstMentions cs) (hd : dictGet a modules = some d) :
    ∃ s, locate l a = some (s, { d with name := some a }) := by
  rw [← hl.1] at ha
  cases h : locate l a with
  | none => rw [locate_none] at h; exact absurd ha h
  | some q =>
    obtain ⟨s, c⟩ := q
    have hb := locate_iff.mp h
    obtain ⟨d', hd', he⟩ := hl.2 _ hb.mem
    simp only at hd' he
    rw [hd] at hd'
    simp only [Option.some.injEq] at hd'
    subst hd'
    exact ⟨s, by rw [he]⟩

/-- C16: extending an accepted network by an internal connection with a port number that is too high
(for either component) is rejected with `ValueError`. -/
theorem C16_port_too_high (name : Option Str) (modules : Comps) (cs : List Conn) (c : Comp)
    (hm : ∀ p ∈ modules, Built p.2) (hg : GoodConns cs)
    (h : mkNet name modules (cs.map Conn.text) = .ok c) (a b : Str) (i j : ℤ)
    (ha : a ∈ firstMentions cs) (hb : b ∈ firstMentions cs) (hga : GoodName a) (hgb : GoodName b)
    (hne : ¬ (a = b ∧ i = j)) (hi : TooHigh modules a i ∨ TooHigh modules b j) :
    mkNet name modules ((cs ++ [Conn.inner a i b j]).map Conn.text) = .error .valueError := by
  obtain ⟨l, hl, h1, h2⟩ := mkNet_extend (d := .inner a i b j) hg
    (by simp only [Conn.names, List.mem_cons, List.not_mem_nil, or_false]; rintro x (rfl | rfl) <;> assumption) h
    (by simp only [Conn.names, List.mem_cons, List.not_mem_nil, or_false]; rintro x (rfl | rfl) <;> assumption)
  rw [h1]
  obtain ⟨hpo, hC, -⟩ := netBuffers_ok h2
  have hch : ChildrenOK l := layout_children hl (P := fun d => Reciprocal d.n d.C) (fun _ _ h => h)
    fun p hp => built_reciprocal (hm p hp)
  -- the port order is unchanged
  have hpo' : setPortOrder l (cs.map Conn.text ++ [(Conn.inner a i b j).text]) = .ok c.portOrder := by
    unfold setPortOrder at hpo ⊢
    cases hm' : mapE (parseExternal l) (cs.map Conn.text) with
    | error e => rw [hm'] at hpo; cases hpo
    | ok es =>
      rw [mapE_append_ok hm' (parseExternal_inner l i j hga hgb)]
      rw [hm'] at hpo
      simpa [Except.bind] using hpo
  have hbad : parseInternal l (Conn.inner a i b j).text = .error .valueError := by
    rw [parseInternal_inner l i j hga hgb]
    unfold internalPorts
    rw [if_neg hne]
    have hh : ∀ x k, x ∈ firstMentions cs → portTooHigh l x k = .error .valueError ∨ portTooHigh l x k = .ok () := by
      intro x k hx
      unfold portTooHigh
      cases hloc : locate l x with
      | none => rw [locate_none, hl.1] at hloc; exact absurd hx hloc
      | some q => simp only; split <;> simp
    have hhigh : ∀ x k, x ∈ firstMentions cs → TooHigh modules x k → portTooHigh l x k = .error .valueError := by
      rintro x k hx ⟨d, hd, hk⟩
      obtain ⟨s, hs⟩ := layout_locate hl hx hd
      have hfree : ({ d with name := some x } : Comp).free = freePorts d :=
        free_eq (c := { d with name := some x }) (built_reciprocal (hm _ (dictGet_mem hd))).2.1
      unfold portTooHigh
      rw [hs]
      simp only [hfree]
      rw [if_pos hk]
    rcases hi with hi | hi
    · rw [hhigh a i ha hi]; rfl
    · rw [hhigh b j hb hi]
      rcases hh a i ha with h | h <;> rw [h] <;> rfl
  unfold netBuffers
  rw [hpo']
  have hC' : setC l (cs.map Conn.text ++ [(Conn.inner a i b j).text]) = .error .valueError := by
    unfold setC at hC ⊢
    cases hm' : mapE (parseInternal l) (cs.map Conn.text) with
    | error e => rw [hm'] at hC; cases hC
    | ok ps => rw [mapE_append_error hm' hbad]; rfl
  rw [hC']; rfl

/-- C16: a connection of a port with itself (equal component and equal number) is rejected with
`IndexError`. -/
theorem C16_same_port (name : Option Str) (modules : Comps) (cs : List Conn) (c : Comp)
    (hg : GoodConns cs) (h : mkNet name modules (cs.map Conn.text) = .ok c) (a : Str) (i : ℤ)
    (ha : a ∈ firstMentions cs) (hga : GoodName a) :
    mkNet name modules ((cs ++ [Conn.inner a i a i]).map Conn.text) = .error .indexError := by
  obtain ⟨l, hl, h1, h2⟩ := mkNet_extend (d := .inner a i a i) hg
    (by simp only [Conn.names, List.mem_cons, List.not_mem_nil, or_false]; rintro x (rfl | rfl) <;> assumption) h
    (by simp only [Conn.names, List.mem_cons, List.not_mem_nil, or_false]; rintro x (rfl | rfl) <;> assumption)
  rw [h1]
  obtain ⟨hpo, hC, -⟩ := netBuffers_ok h2
  have hpo' : setPortOrder l (cs.map Conn.text ++ [(Conn.inner a i a i).text]) = .ok c.portOrder := by
    unfold setPortOrder at hpo ⊢
    cases hm' : mapE (parseExternal l) (cs.map Conn.text) with
    | error e => rw [hm'] at hpo; cases hpo
    | ok es =>
      rw [mapE_append_ok hm' (parseExternal_inner l i i hga hga)]
      rw [hm'] at hpo
      simpa [Except.bind] using hpo
  have hbad : parseInternal l (Conn.inner a i a i).text = .error .indexError := by
    rw [parseInternal_inner l i i hga hga]
    unfold internalPorts
    simp [Except.map]
  unfold netBuffers
  rw [hpo']
  have hC' : setC l (cs.map Conn.text ++ [(Conn.inner a i a i).text]) = .error .indexError := by
    unfold setC at hC ⊢
    cases hm' : mapE (parseInternal l) (cs.map Conn.text) with
    | error e => rw [hm'] at hC; cases hC
    | ok ps => rw [mapE_append_error hm' hbad]; rfl
  rw [hC']; rfl

/-- C16: an external port on a port number that is too high is rejected with `IndexError`. -/
theorem C16_external_too_high (name : Option Str) (modules : Comps) (cs : List Conn) (c : Comp)
    (hm : ∀ p ∈ modules, Built p.2) (hg : GoodConns cs)
    (h : mkNet name modules (cs.map Conn.text) = .ok c) (a : Str) (i p : ℤ)
    (ha : a ∈ firstMentions cs) (hga : GoodName a) (hi : TooHigh modules a i) :
    mkNet name modules ((cs ++ [Conn.outer a i p]).map Conn.text) = .error .indexError := by
  obtain ⟨l, hl, h1, h2⟩ := mkNet_extend (d := .outer a i p) hg
    (by simp only [Conn.names, List.mem_cons, List.not_mem_nil, or_false]; rintro x rfl; assumption) h
    (by simp only [Conn.names, List.mem_cons, List.not_mem_nil, or_false]; rintro x rfl; assumption)
  rw [h1]
  obtain ⟨hpo, -, -⟩ := netBuffers_ok h2
  obtain ⟨d, hd, hk⟩ := hi
  obtain ⟨s, hs⟩ := layout_locate hl ha hd
  have hfree : ({ d with name := some a } : Comp).free = freePorts d :=
    free_eq (c := { d with name := some a }) (built_reciprocal (hm _ (dictGet_mem hd))).2.1
  have hbad : parseExternal l (Conn.outer a i p).text = .error .indexError := by
    rw [parseExternal_outer l i p hga]
    unfold globalPort
    rw [hs]
    have : pyIndex (freePorts d) i = none := by
      unfold pyIndex
      rw [if_pos (by omega)]
      simp only [List.getElem?_eq_none_iff]; omega
    simp [hfree, this, Except.map]
  unfold netBuffers setPortOrder
  unfold setPortOrder at hpo
  cases hm' : mapE (parseExternal l) (cs.map Conn.text) with
  | error e => rw [hm'] at hpo; cases hpo
  | ok es => rw [mapE_append_error hm' hbad]; rfl

/-- The last part of C16: no accepted network connects a port of its components to itself. -/
def C16_no_self_statement : Prop := ∀ (name : Option Str) (modules : Comps) (cs : List Conn) (c : Comp),
  (∀ p ∈ modules, Built p.2) → GoodConns cs → mkNet name modules (cs.map Conn.text) = .ok c →
  ∀ l, Layout modules cs l → ∀ i, ¬ Declared l cs i i

/-- It fails: `"w:1:w:-1"` connects port 1 of the waveguide `w` to itself. -/
theorem C16_violation : ¬ C16_no_self_statement := by
  intro H
  set cs : List Conn := [.inner ['w'] 1 ['w'] (-1)] with hcs
  have hk : okAnd (mkNet none [(['w'], passive 2)] (cs.map Conn.text)) (fun c => decide (c.C 1 1 = 1)) = true := by
    decide +kernel
  obtain ⟨c, hc, -⟩ := okAnd_iff.mp hk
  have hg : GoodConns cs := goodConns_dec (by decide)
  have hm : ∀ p ∈ ([(['w'], passive 2)] : Comps), Built p.2 := by
    intro p hp; rw [List.mem_singleton.mp hp]; exact passive_built 2 (by decide)
  set d : Comp := { passive 2 with name := some ['w'] } with hd
  refine H none _ cs c hm hg hc [(['w'], d)] ⟨by decide, ?_⟩ 1 ?_
  · intro p hp; rw [List.mem_singleton.mp hp]; exact ⟨passive 2, by simp [dictGet], rfl⟩
  · have hb : Block [(['w'], d)] ['w'] d 0 := ⟨[], [], rfl, by simp, rfl⟩
    have hf : freePorts d = [0, 1] := by decide +kernel
    refine ⟨['w'], 1, ['w'], -1, by simp [hcs], .inl ⟨⟨d, 0, 1, hb, ?_, rfl⟩, ⟨d, 0, 1, hb, ?_, rfl⟩⟩⟩
    · exact .inl ⟨1, rfl, by rw [hf]; rfl⟩
    · exact .inr ⟨1, by rw [hf]; rfl, by decide, by rw [hf]; rfl⟩

/-- C16, what holds: with non-negative port numbers and proper sub-components no declared connection
joins a port to itself. (Missing: negative port numbers, for which it is false.) -/
theorem C16_no_self_partial (name : Option Str) (modules : Comps) (cs : List Conn) (c : Comp)
    (hm : ∀ p ∈ modules, Built p.2 ∧ OrderOK p.2) (hg : GoodConns cs)
    (hpos : ∀ e ∈ endpoints cs, 0 ≤ e.2) (h : mkNet name modules (cs.map Conn.text) = .ok c) :
    ∀ l, Layout modules cs l → ∀ i, ¬ Declared l cs i i := by
  rintro l hl i ⟨a, k, b, m, hmem, hp⟩
  have hnd : ∀ p ∈ l, p.2.portOrder.Nodup := layout_children hl (P := fun d => d.portOrder.Nodup)
    (fun _ _ h => h) fun p hp => (hm p hp).2.nodup_iff.mpr List.nodup_range
  have hka : 0 ≤ k := hpos (a, k) (List.mem_flatMap.mpr ⟨_, hmem, by simp [Conn.ends]⟩)
  have hmb : 0 ≤ m := hpos (b, m) (List.mem_flatMap.mpr ⟨_, hmem, by simp [Conn.ends]⟩)
  have heq : a = b ∧ k = m := by
    rcases hp with ⟨h1, h2⟩ | ⟨h1, h2⟩ <;> exact portOf_inj hnd hka hmb h1 h2
  obtain ⟨l', hl', hb⟩ := mkNet_text_ok hg h
  obtain ⟨-, hC, -⟩ := netBuffers_ok hb
  obtain ⟨ps, hps, -⟩ := setC_ok hC
  obtain ⟨p, -, x, y, hxy, -⟩ := forall₂_mem_left (mapE_parseInternal_text hg hps) hmem
  exact (internalPorts_ok hxy).2.2 heq

/-- hypotheses of the C16 theorems: the ring of `ringModules`, extended by bad connections. -/
example : GoodConns ringConns ∧ (['d'] : Str) ∈ firstMentions ringConns ∧ GoodName ['d'] ∧
    TooHigh ringModules ['d'] 4 ∧ (['x'] : Str) ∉ ringModules.map Prod.fst ∧
    (∀ e ∈ endpoints ringConns, 0 ≤ e.2) := by
  refine ⟨goodConns_dec (by decide), by decide, goodName_dec (by decide), ?_, by decide, by decide⟩
  exact ⟨passive 4, by simp [ringModules, dictGet], by decide +kernel⟩

/-! ## C24 Each port has at most one partner -/

/-- The full statement: accepted networks pair their ports. -/
def C24_statement : Prop := ∀ (name : Option Str) (modules : Comps) (cs : List Conn) (c : Comp),
  (∀ p ∈ modules, Built p.2 ∧ AtMostOne p.2.C) → GoodConns cs →
  mkNet name modules (cs.map Conn.text) = .ok c → AtMostOne c.C

theorem passive_atMostOne (n : ℕ) : AtMostOne (passive n).C := fun _ _ _ h => absurd rfl h

/-- It fails: a port may be linked twice. -/
theorem C24_violation : ¬ C24_statement := by
  intro H
  set cs : List Conn := [.inner ['a'] 0 ['b'] 0, .inner ['a'] 0 ['b'] 1] with hcs
  have hk : okAnd (mkNet none [(['a'], passive 2), (['b'], passive 2)] (cs.map Conn.text))
      (fun c => decide (c.C 0 2 ≠ 0 ∧ c.C 0 3 ≠ 0)) = true := by decide +kernel
  obtain ⟨c, hc, hk⟩ := okAnd_iff.mp hk
  simp only [decide_eq_true_eq] at hk
  have := H none _ cs c (by
    intro p hp
    simp only [List.mem_cons, List.not_mem_nil, or_false] at hp
    rcases hp with rfl | rfl <;> exact ⟨passive_built 2 (by decide), passive_atMostOne 2⟩)
    (goodConns_dec (by decide)) hc 0 2 3 hk.1 hk.2
  omega

theorem endpoint_unique {cs : List Conn} (h : (endpoints cs).Nodup) {a b a' b' : Str} {k m k' m' : ℤ}
    (h1 : Conn.inner a k b m ∈ cs) (h2 : Conn.inner a' k' b' m' ∈ cs) :
    (a = a' → k = k' → b = b' ∧ m = m') ∧ (a = b' → k = m' → False) ∧ (b = b' → m = m' → a = a' ∧ k = k') := by
  induction cs with
  | nil => cases h1
  | cons c cs ih =>
    have hnd : ∀ x : List (Str × ℤ), c.ends = x → x.Nodup ∧ (endpoints cs).Nodup ∧ List.Disjoint x (endpoints cs) := by
      rintro x rfl
      have := h
      unfold endpoints at this
      rw [List.flatMap_cons, List.nodup_append'] at this
      exact this
    have hmem : ∀ {a b : Str} {k m : ℤ}, Conn.inner a k b m ∈ cs →
        (a, k) ∈ endpoints cs ∧ (b, m) ∈ endpoints cs := by
      intro a b k m h
      exact ⟨List.mem_flatMap.mpr ⟨_, h, by simp [Conn.ends]⟩, List.mem_flatMap.mpr ⟨_, h, by simp [Conn.ends]⟩⟩
    rcases List.mem_cons.mp h1 with rfl | h1
    · obtain ⟨hn1, hn2, hn3⟩ := hnd _ rfl
      simp only [Conn.ends] at hn1 hn3
      simp only [List.nodup_cons, List.mem_singleton, Prod.mk.injEq, not_and, List.not_mem_nil,
        not_false_eq_true, List.nodup_nil, and_true] at hn1
      rcases List.mem_cons.mp h2 with h2 | h2
      · simp only [Conn.inner.injEq] at h2
        obtain ⟨rfl, rfl, rfl, rfl⟩ := h2
        exact ⟨fun _ _ => ⟨rfl, rfl⟩, fun e e' => hn1 e e', fun _ _ => ⟨rfl, rfl⟩⟩
      · obtain ⟨m1, m2⟩ := hmem h2
        refine ⟨?_, ?_, ?_⟩
        · rintro rfl rfl; exact absurd m1 (hn3 (by simp))
        · rintro rfl rfl; exact absurd m2 (hn3 (by simp))
        · rintro rfl rfl; exact absurd m2 (hn3 (by simp))
    · obtain ⟨m1, m2⟩ := hmem h1
      rcases List.mem_cons.mp h2 with rfl | h2
      · obtain ⟨hn1, hn2, hn3⟩ := hnd _ rfl
        simp only [Conn.ends] at hn1 hn3
        refine ⟨?_, ?_, ?_⟩
        · rintro rfl rfl; exact absurd m1 (hn3 (by simp))
        · rintro rfl rfl; exact absurd m1 (hn3 (by simp))
        · rintro rfl rfl; exact absurd m2 (hn3 (by simp))
      · exact ih (hnd _ rfl).2.1 h1 h2

/-- C24, what holds: if no sub-component port is named twice (and ports are given by
non-negative numbers), every port has at most one partner; and if no port is free, every port has
exactly one. (Missing: the code does not enforce the hypothesis.) -/
theorem C24_pairing_partial (name : Option Str) (modules : Comps) (cs : List Conn) (c : Comp)
    (hm : ∀ p ∈ modules, Built p.2 ∧ OrderOK p.2 ∧ AtMostOne p.2.C) (hg : GoodConns cs)
    (hu : UsedOnce cs) (h : mkNet name modules (cs.map Conn.text) = .ok c) :
    AtMostOne c.C ∧ (c.terminated = true → ∀ i < c.n, ∃! j, c.C i j ≠ 0) := by
  obtain ⟨l, hl, hb⟩ := mkNet_text_ok hg h
  have hch : ChildrenOK l := layout_children hl (P := fun d => Reciprocal d.n d.C) (fun _ _ h => h)
    fun p hp => built_reciprocal (hm p hp).1
  have hnd : ∀ p ∈ l, p.2.portOrder.Nodup := layout_children hl (P := fun d => d.portOrder.Nodup)
    (fun _ _ h => h) fun p hp => (hm p hp).2.1.nodup_iff.mpr List.nodup_range
  have h1 : ∀ p ∈ l, AtMostOne p.2.C := layout_children hl (P := fun d => AtMostOne d.C)
    (fun _ _ h => h) fun p hp => (hm p hp).2.2
  obtain ⟨-, hC, hn, -⟩ := netBuffers_ok hb
  have hrec := setC_reciprocal hch hC
  have key : ∀ i j, c.C i j ≠ 0 → InsideConn l i j ∨ Declared l cs i j := by
    intro i j hij
    rw [← blockC_iff (layout_nodup hl)]
    by_cases hd : Declared l cs i j
    · exact .inr hd
    · rw [(declared_iff hch hg hC i j).2 hd] at hij
      exact .inl hij
  have hmix : ∀ i j j', InsideConn l i j → Declared l cs i j' → False := by
    rintro i j j' ⟨x, d, s, i', j'', hbl, hi', hj'', rfl, rfl, hne⟩ ⟨a, k, b, m, -, hp⟩
    have hport : ∃ a k, PortOf l a k (s + i') := by
      rcases hp with ⟨h, -⟩ | ⟨-, h⟩
      · exact ⟨_, _, h⟩
      · exact ⟨_, _, h⟩
    obtain ⟨a, k, d', s', p, hbl', hat, he⟩ := hport
    have hpf := hat.mem
    unfold freePorts at hpf
    simp only [List.mem_filter, decide_eq_true_eq] at hpf
    obtain ⟨-, rfl, -, rfl⟩ := block_disjoint hbl hbl' hi' hpf.2.1 he
    exact hne (hpf.2.2 _ hj'').1
  have hpos : ∀ {a b : Str} {k m : ℤ}, Conn.inner a k b m ∈ cs → 0 ≤ k ∧ 0 ≤ m := by
    intro a b k m hmem
    exact ⟨hu.2 (a, k) (List.mem_flatMap.mpr ⟨_, hmem, by simp [Conn.ends]⟩),
      hu.2 (b, m) (List.mem_flatMap.mpr ⟨_, hmem, by simp [Conn.ends]⟩)⟩
  have hone : AtMostOne c.C := by
    intro i j j' hj hj'
    rcases key i j hj with h | h <;> rcases key i j' hj' with h' | h'
    · obtain ⟨x, d, s, i1, j1, hbl, hi1, hj1, rfl, rfl, hne⟩ := h
      obtain ⟨x', d', s', i2, j2, hbl', hi2, hj2, he, rfl, hne'⟩ := h'
      obtain ⟨-, rfl, rfl, rfl⟩ := block_disjoint hbl hbl' hi1 hi2 he
      rw [h1 _ hbl.mem _ _ _ hne hne']
    · exact absurd h' (fun h' => hmix _ _ _ h h')
    · exact absurd h (fun h => hmix _ _ _ h' h)
    · obtain ⟨a, k, b, m, hc1, hp⟩ := h
      obtain ⟨a', k', b', m', hc2, hp'⟩ := h'
      obtain ⟨p1, p2⟩ := hpos hc1
      obtain ⟨p1', p2'⟩ := hpos hc2
      obtain ⟨u1, u2, u3⟩ := endpoint_unique hu.1 hc1 hc2
      obtain ⟨-, u2', -⟩ := endpoint_unique hu.1 hc2 hc1
      rcases hp with ⟨q1, q2⟩ | ⟨q1, q2⟩ <;> rcases hp' with ⟨q1', q2'⟩ | ⟨q1', q2'⟩
      · obtain ⟨e1, e2⟩ := portOf_inj hnd p1 p1' q1 q1'
        obtain ⟨e3, e4⟩ := u1 e1 e2
        subst e3 e4
        exact portOf_det hch q2 q2'
      · obtain ⟨e1, e2⟩ := portOf_inj hnd p1 p2' q1 q2'
        exact absurd (u2 e1 e2) id
      · obtain ⟨e1, e2⟩ := portOf_inj hnd p2 p1' q2 q1'
        exact absurd (u2' e1.symm e2.symm) id
      · obtain ⟨e1, e2⟩ := portOf_inj hnd p2 p2' q2 q2'
        obtain ⟨e3, e4⟩ := u3 e1 e2
        subst e3 e4
        exact portOf_det hch q1 q1'
  refine ⟨hone, fun ht i hi => ?_⟩
  have hnf : c.freeAt i = false := by
    unfold Comp.terminated at ht
    rw [Bool.not_eq_true', List.any_eq_false] at ht
    simpa using ht i (List.mem_range.mpr hi)
  have : ¬ Unconnected c i := by
    intro hu'
    have := (freeAt_iff hrec.2.1 i).mpr ⟨hi, hu'⟩
    rw [hnf] at this; cases this
  unfold Unconnected at this
  push Not at this
  obtain ⟨k, hk, hk'⟩ := this
  have hne : c.C i k ≠ 0 := by
    intro h0; exact hk' h0 ((hrec.1 k i).trans h0)
  exact ⟨k, hne, fun j hj => hone i j k hj hne⟩

theorem passive_order (n : ℕ) : OrderOK (passive n) := List.Perm.refl _

example : (∀ p ∈ ringModules, Built p.2 ∧ OrderOK p.2 ∧ AtMostOne p.2.C) ∧ UsedOnce ringConns := by
  refine ⟨?_, by unfold UsedOnce; decide⟩
  intro p hp
  simp only [ringModules, List.mem_cons, List.not_mem_nil, or_false] at hp
  rcases hp with rfl | rfl
  · exact ⟨passive_built 2 (by decide), passive_order 2, passive_atMostOne 2⟩
  · exact ⟨passive_built 4 (by decide), passive_order 4, passive_atMostOne 4⟩

/-- Networks built the documented way can be built. -/
theorem Spec.Clean.built {c : Comp} (h : Clean c) : Built c := by
  induction h with
  | leaf n src det act h1 h2 h3 h4 => exact .leaf n src det act h1 h2 h3 h4
  | soa => exact .soa
  | named c x _ ih => exact .named c x ih
  | net name modules cs c _ hg hu hc hk ih => exact .net name modules _ c ih hk

/-! ## C19 The port order is a permutation -/

/-- The full statement. -/
def C19_statement : Prop := ∀ (name : Option Str) (modules : Comps) (cs : List Conn) (c : Comp),
  (∀ p ∈ modules, Built p.2 ∧ OrderOK p.2) → GoodConns cs →
  mkNet name modules (cs.map Conn.text) = .ok c → OrderOK c

/-- It fails: with external numbers 1 and 2 (0 missing) the first port is dropped from the order and the
last one occurs twice, without an error: the sanity check of the port order raises only if every
entry is wrong. -/
theorem C19_violation : ¬ C19_statement := by
  intro H
  set cs : List Conn := [.outer ['a'] 0 1, .outer ['a'] 1 2] with hcs
  have hk : okAnd (mkNet none [(['a'], passive 3)] (cs.map Conn.text))
      (fun c => decide (c.portOrder = [0, 2, 2])) = true := by decide +kernel
  obtain ⟨c, hc, hk⟩ := okAnd_iff.mp hk
  simp only [decide_eq_true_eq] at hk
  have := H none _ cs c (by
    intro p hp
    rw [List.mem_singleton.mp hp]; exact ⟨passive_built 3 (by decide), passive_order 3⟩)
    (goodConns_dec (by decide)) hc
  have := this.nodup_iff.mpr List.nodup_range
  rw [hk] at this
  exact absurd this (by decide)

/-- C19, what holds: with contiguous external numbers the port order of a network whose sub-components
have proper port orders is a permutation of its ports. (Missing: external numbers with gaps or
repetitions, for which it is false.) -/
theorem C19_permutation_partial (name : Option Str) (modules : Comps) (cs : List Conn) (c : Comp)
    (hm : ∀ p ∈ modules, Built p.2 ∧ OrderOK p.2) (hg : GoodConns cs) (hc : Contiguous cs)
    (h : mkNet name modules (cs.map Conn.text) = .ok c) : OrderOK c := by
  obtain ⟨l, hl, hb⟩ := mkNet_text_ok hg h
  have hch : ChildrenOK l := layout_children hl (P := fun d => Reciprocal d.n d.C) (fun _ _ h => h)
    fun p hp => built_reciprocal (hm p hp).1
  have hord : ∀ p ∈ l, OrderOK p.2 := layout_children hl (fun _ _ h => h) fun p hp => (hm p hp).2
  obtain ⟨hpo, -, hn, -⟩ := netBuffers_ok hb
  obtain ⟨es, -, -, -, -, hperm, he⟩ := setPortOrder_contiguous hg hch
    (fun p hp => by simpa using (hord p hp).length_eq)
    (fun p hp => (hord p hp).nodup_iff.mpr List.nodup_range) hc hpo
  unfold OrderOK
  rw [he, hn]
  refine (hperm.map _).trans ?_
  have hlen := blockOrder_length (l := l) fun p hp => by simpa using (hord p hp).length_eq
  rw [← hlen, map_getD_range, hlen]
  exact blockOrder_perm hord

/-- C19 and C24 for networks built the documented way, to any nesting depth. -/
theorem C19_clean_partial (c : Comp) (h : Clean c) : OrderOK c ∧ AtMostOne c.C := by
  induction h with
  | leaf n src det act _ _ _ _ => exact ⟨List.Perm.refl _, fun _ _ _ h => absurd rfl h⟩
  | soa =>
    refine ⟨List.Perm.refl _, ?_⟩
    intro i j j' h h'
    simp only [soa, ne_eq, ite_eq_right_iff, one_ne_zero, imp_false, not_not] at h h'
    rw [h.2, h'.2]
  | named c x _ ih => exact ih
  | net name modules cs c hcl hg hu hc hk ih =>
    exact ⟨C19_permutation_partial name modules cs c (fun p hp => ⟨(hcl p hp).built, (ih p hp).1⟩) hg hc hk,
      (C24_pairing_partial name modules cs c
        (fun p hp => ⟨(hcl p hp).built, (ih p hp).1, (ih p hp).2⟩) hg hu hk).1⟩

theorem passive_clean (n : ℕ) (hn : 0 < n) : Clean (passive n) :=
  .leaf n _ _ _ (by simp) (by simp) (by simp) (passive_check n hn)

example : Contiguous ringConns := by unfold Contiguous; decide

/-! ## C17, C18 External port numbers -/

/-- Why a declared external port is unconnected. -/
theorem outer_unconnected {l : Comps} {cs : List Conn} {c : Comp} (hch : ChildrenOK l)
    (hnames : (l.map Prod.fst).Nodup) (hg : GoodConns cs)
    (hnd : ∀ p ∈ l, p.2.portOrder.Nodup) (hC : setC l (cs.map Conn.text) = .ok c.C) (hs : Separate cs)
    {a : Str} {i p : ℤ} (ho : Conn.outer a i p ∈ cs) (hi : 0 ≤ i) {g : ℕ} (hp : PortOf l a i g) :
    Unconnected c g := by
  have hrec := setC_reciprocal hch hC
  have hz : ∀ k, c.C g k = 0 := by
    intro k
    by_contra hne
    have hd := declared_iff hch hg hC g k
    by_cases hdec : Declared l cs g k
    · obtain ⟨x, m, y, m', hmem, hh⟩ := hdec
      have hx : (x, m) ∈ endpoints cs := List.mem_flatMap.mpr ⟨_, hmem, by simp [Conn.ends]⟩
      have hy : (y, m') ∈ endpoints cs := List.mem_flatMap.mpr ⟨_, hmem, by simp [Conn.ends]⟩
      have ho' : ((a, i), p) ∈ outs cs := List.mem_filterMap.mpr ⟨_, ho, rfl⟩
      rcases hh with ⟨h1, -⟩ | ⟨-, h1⟩
      · obtain ⟨rfl, rfl⟩ := portOf_inj hnd hi (hs.2 _ hx) hp h1
        exact hs.1 _ ho' hx
      · obtain ⟨rfl, rfl⟩ := portOf_inj hnd hi (hs.2 _ hy) hp h1
        exact hs.1 _ ho' hy
    · rw [hd.2 hdec] at hne
      obtain ⟨x, d, s, i', j', hbl, hi', hj', he, -, hne⟩ := (blockC_iff hnames g k).mp hne
      obtain ⟨d', s', q, hbl', hat, he'⟩ := hp
      have hpf := hat.mem
      unfold freePorts at hpf
      simp only [List.mem_filter, decide_eq_true_eq] at hpf
      obtain ⟨-, rfl, -, rfl⟩ := block_disjoint hbl hbl' hi' hpf.2.1 (he.symm.trans he')
      exact hne (hpf.2.2 _ hj').1
  intro k _
  exact ⟨hz k, (hrec.1 k g).trans (hz k)⟩

theorem layout_unique {modules l l' : Comps} {cs : List Conn} (h : Layout modules cs l)
    (h' : Layout modules cs l') : l = l' := by
  have key : ∀ l l' : Comps, l.map Prod.fst = l'.map Prod.fst →
      (∀ p ∈ l, ∃ d, dictGet p.1 modules = some d ∧ p.2 = { d with name := some p.1 }) →
      (∀ p ∈ l', ∃ d, dictGet p.1 modules = some d ∧ p.2 = { d with name := some p.1 }) → l = l' := by
    intro l
    induction l with
    | nil => intro l' hn _ _; simpa using hn.symm
    | cons p l ih =>
      intro l' hn h1 h2
      cases l' with
      | nil => simp at hn
      | cons p' l' =>
        simp only [List.map_cons, List.cons.injEq] at hn
        obtain ⟨d, hd, he⟩ := h1 p (by simp)
        obtain ⟨d', hd', he'⟩ := h2 p' (by simp)
        rw [← hn.1, hd] at hd'
        simp only [Option.some.injEq] at hd'
        subst hd'
        rw [ih l' hn.2 (fun q hq => h1 q (by simp [hq])) fun q hq => h2 q (by simp [hq])]
        congr 1
        exact Prod.ext hn.1 (by rw [he, he', hn.1])
  exact key l l' (h.1.trans h'.1.symm) h.2 h'.2

/-- C17. If the sub-components number their ports in order (all basic components do), the external
numbers are 0, …, k-1, and no declared port is also connected, then free port `j` of the network is the
port declared as `j`, for every `j < k`, and the remaining free ports follow in ascending order. -/
theorem C17_numbering (name : Option Str) (modules : Comps) (cs : List Conn) (c : Comp)
    (hm : ∀ p ∈ modules, Built p.2 ∧ p.2.portOrder = List.range p.2.n) (hg : GoodConns cs)
    (hc : Contiguous cs) (hs : Separate cs) (h : mkNet name modules (cs.map Conn.text) = .ok c) :
    c.free = freePorts c ∧ ∀ l, Layout modules cs l → NumberedAsDeclared l cs c := by
  obtain ⟨l, hl, hb⟩ := mkNet_text_ok hg h
  have hch : ChildrenOK l := layout_children hl (P := fun d => Reciprocal d.n d.C) (fun _ _ h => h)
    fun p hp => built_reciprocal (hm p hp).1
  have hid : ∀ p ∈ l, p.2.portOrder = List.range p.2.n := layout_children hl
    (P := fun d => d.portOrder = List.range d.n) (fun _ _ h => h) fun p hp => (hm p hp).2
  have hnd : ∀ p ∈ l, p.2.portOrder.Nodup := fun p hp => by rw [hid p hp]; exact List.nodup_range
  obtain ⟨hpo, hC, hn, -⟩ := netBuffers_ok hb
  have hrec := setC_reciprocal hch hC
  refine ⟨free_eq hrec.2.1, fun l' hl' => ?_⟩
  rw [← layout_unique hl hl']
  obtain ⟨es, hF, hperm, hnod, hlt, hpc, he⟩ := setPortOrder_contiguous hg hch
    (fun p hp => by simp [hid p hp]) hnd hc hpo
  have hep := extList_perm hperm
  -- the port order, without the sub-components' orders
  have he' : c.portOrder = extList es ++ (List.range (width l)).filter fun i => decide (i ∉ extList es) := by
    rw [he, blockOrder_id hid]
    conv_rhs => rw [← List.map_id (extList es ++ _)]
    apply List.map_congr_left
    intro i hi
    have : i < width l := List.mem_range.mp (hpc.mem_iff.mp hi)
    simp [this]
  have hunc : ∀ g ∈ extList es, g < c.n ∧ Unconnected c g := by
    intro g hgm
    rw [hep.mem_iff] at hgm
    obtain ⟨e, hee, rfl⟩ := List.mem_map.mp hgm
    obtain ⟨o, ho, ho'⟩ := forall₂_mem_right hF hee
    have hpos := hc.2.2 o ho
    simp only [outs, List.mem_filterMap] at ho
    obtain ⟨d, hd, hd'⟩ := ho
    cases d with
    | inner a i b j => cases hd'
    | outer a i p =>
      simp only [Option.some.injEq] at hd'
      subst hd'
      exact ⟨hn ▸ ho'.1.lt, outer_unconnected hch (layout_nodup hl) hg hnd hC hs hd hpos ho'.1⟩
  have hfree : freePorts c = extList es ++ (List.range (width l)).filter
      fun i => decide (i < c.n ∧ Unconnected c i) && decide (i ∉ extList es) := by
    unfold freePorts
    rw [he', List.filter_append, List.filter_filter]
    congr 1
    rw [List.filter_eq_self]
    intro g hgm
    simpa using hunc g hgm
  have hlen : (extList es).length = (outs cs).length := by
    rw [hep.length_eq, List.length_map, hF.length_eq]
  have hdrop : (freePorts c).drop (outs cs).length = (List.range (width l)).filter
      fun i => decide (i < c.n ∧ Unconnected c i) && decide (i ∉ extList es) := by
    rw [hfree, ← hlen, List.drop_left]
  refine ⟨?_, ?_, ?_⟩
  · intro a i p ho
    have ho' : ((a, i), p) ∈ outs cs := List.mem_filterMap.mpr ⟨_, ho, rfl⟩
    obtain ⟨e, hee, hp, hq⟩ := forall₂_mem_left hF ho'
    have hj : p ∈ (outs cs).map Prod.snd := List.mem_map.mpr ⟨_, ho', rfl⟩
    rw [hc.1.mem_iff] at hj
    obtain ⟨j, -, rfl⟩ := List.mem_map.mp hj
    refine ⟨j, e.1, rfl, hp, ?_⟩
    have hget := extList_get hperm (g := e.1) (j := j) (by
      have : e = (e.1, (j : ℤ)) := Prod.ext rfl hq
      rw [← this]; exact hee)
    rw [hfree, List.getElem?_append_left (List.getElem?_eq_some_iff.mp hget).1]
    exact hget
  · rw [hdrop]; exact List.pairwise_lt_range.filter _
  · intro g
    rw [hdrop]
    simp only [List.mem_filter, List.mem_range, Bool.and_eq_true, decide_eq_true_eq, ← hn]
    have : g ∈ extList es ↔ ∃ a i p, Conn.outer a i p ∈ cs ∧ PortOf l a i g := by
      rw [hep.mem_iff]
      constructor
      · intro hgm
        obtain ⟨e, hee, rfl⟩ := List.mem_map.mp hgm
        obtain ⟨o, ho, ho'⟩ := forall₂_mem_right hF hee
        simp only [outs, List.mem_filterMap] at ho
        obtain ⟨d, hd, hd'⟩ := ho
        cases d with
        | inner a i b j => cases hd'
        | outer a i p =>
          simp only [Option.some.injEq] at hd'
          subst hd'
          exact ⟨a, i, p, hd, ho'.1⟩
      · rintro ⟨a, i, p, ho, hp⟩
        have ho' : ((a, i), p) ∈ outs cs := List.mem_filterMap.mpr ⟨_, ho, rfl⟩
        obtain ⟨e, hee, hp', -⟩ := forall₂_mem_left hF ho'
        exact List.mem_map.mpr ⟨e, hee, portOf_det hch hp' hp⟩
    rw [this]
    tauto

example : (∀ p ∈ ringModules, Built p.2 ∧ p.2.portOrder = List.range p.2.n) ∧ Contiguous ringConns ∧
    Separate ringConns := by
  refine ⟨?_, by unfold Contiguous; decide, by unfold Separate; decide⟩
  intro p hp
  simp only [ringModules, List.mem_cons, List.not_mem_nil, or_false] at hp
  rcases hp with rfl | rfl
  · exact ⟨passive_built 2 (by decide), rfl⟩
  · exact ⟨passive_built 4 (by decide), rfl⟩

/-- The same for sub-components that are networks themselves. -/
def C18_statement : Prop := ∀ (name : Option Str) (modules : Comps) (cs : List Conn) (c : Comp),
  (∀ p ∈ modules, Clean p.2) → GoodConns cs → Contiguous cs → Separate cs →
  mkNet name modules (cs.map Conn.text) = .ok c → ∀ l, Layout modules cs l → NumberedAsDeclared l cs c

/-- A waveguide with its ports rotated, as a network. -/
def rotConns : List Conn := [.outer ['w'] 1 0, .outer ['w'] 2 1, .outer ['w'] 0 2]

/-- It fails: a sub-network with permuted ports, whose ports are declared external, in order, gets
the permutation applied twice. -/
theorem C18_violation : ¬ C18_statement := by
  intro H
  have hk : okAnd (mkNet none [(['w'], passive 3)] (rotConns.map Conn.text)) (fun d =>
      okAnd (mkNet none [(['s'], d)] (([.outer ['s'] 0 0, .outer ['s'] 1 1, .outer ['s'] 2 2] : List Conn).map
        Conn.text)) fun c => decide (freePorts d = [1, 2, 0] ∧ d.n = 3 ∧ freePorts c = [2, 0, 1])) = true := by
    decide +kernel
  obtain ⟨d, hd, hk⟩ := okAnd_iff.mp hk
  obtain ⟨c, hc, hk⟩ := okAnd_iff.mp hk
  simp only [decide_eq_true_eq] at hk
  obtain ⟨hf, hn, hfc⟩ := hk
  have hclean : Clean d := .net none [(['w'], passive 3)] rotConns d (by
      intro p hp; rw [List.mem_singleton.mp hp]; exact passive_clean 3 (by decide))
    (goodConns_dec (by decide)) (by unfold UsedOnce; decide) (by unfold Contiguous; decide) hd
  have hN := H none [(['s'], d)] _ c (by intro p hp; rw [List.mem_singleton.mp hp]; exact hclean)
    (goodConns_dec (by decide)) (by unfold Contiguous; decide) (by unfold Separate; decide) hc
    [(['s'], { d with name := some ['s'] })] ⟨by simp [firstMentions, Conn.names], by
      intro p hp; rw [List.mem_singleton.mp hp]; exact ⟨d, by simp [dictGet], rfl⟩⟩
  obtain ⟨j, g, hj, ⟨e, s, p, hbl, hat, rfl⟩, hg⟩ := hN.1 ['s'] 0 0 (by simp)
  have : j = 0 := by exact_mod_cast hj.symm
  subst this
  have hb : Block [(['s'], { d with name := some ['s'] })] ['s'] { d with name := some ['s'] } 0 :=
    ⟨[], [], rfl, by simp, rfl⟩
  obtain ⟨rfl, rfl⟩ := block_det hb hbl
  have hf' : freePorts { d with name := some ['s'] } = [1, 2, 0] := hf
  rw [hf'] at hat
  rw [hfc] at hg
  rcases hat with ⟨k, hk, hk'⟩ | ⟨k, -, hk, -⟩
  · have : k = 0 := by exact_mod_cast hk.symm
    subst this
    simp at hk' hg
    omega
  · omega

theorem blockOrder_filter (P : ℕ → Bool) : ∀ (l : Comps) (s : ℕ),
    (∀ (pre post : Comps) (x : Str) (c : Comp) (p : ℕ), l = pre ++ (x, c) :: post → p < c.n →
      P (s + width pre + p) = true → Unconnected c p) →
    (∀ q ∈ l, ∀ p ∈ q.2.portOrder, p < q.2.n) →
    ((blockOrder l).map (s + ·)).filter P = (chainPorts l s).filter P := by
  intro l
  induction l with
  | nil => intro s _ _; rfl
  | cons q l ih =>
    obtain ⟨x, c⟩ := q
    intro s hP ho
    simp only [blockOrder, chainPorts, List.map_append, List.map_map, List.filter_append]
    congr 1
    · unfold freePorts
      have := ho (x, c) (by simp)
      simp only at this
      rw [List.filter_map, List.filter_map, List.filter_filter]
      congr 1
      apply List.filter_congr
      intro p hp
      simp only [Function.comp]
      cases hb : P (s + p) with
      | false => simp
      | true =>
        have hu := hP [] l x c p rfl (this p hp) (by simpa [width] using hb)
        simp [this p hp, hu]
    · have hmap : ((fun x => s + x) ∘ fun x => c.n + x) = fun x => (s + c.n) + x := by
        funext x; simp only [Function.comp]; omega
      rw [hmap]
      apply ih
      · intro pre post y d p hl hp hb
        apply hP ((x, c) :: pre) post y d p (by rw [hl]; rfl) hp
        have : s + width ((x, c) :: pre) + p = s + c.n + width pre + p := by simp [width]; omega
        rw [this]; exact hb
      · exact fun q hq => ho q (by simp [hq])

/-- C18, what holds: without external declarations the free ports of a network are those of its
sub-components (networks of any depth), sub-component by sub-component, in the sub-components' own
numbering, without the ones that got connected. (Missing: external declarations on
sub-networks with permuted ports, for which the numbering is wrong; declarations on
sub-components that number their ports in order are covered by `C17_numbering`.) -/
theorem C18_numbering_partial (name : Option Str) (modules : Comps) (cs : List Conn) (c : Comp)
    (hm : ∀ p ∈ modules, Built p.2 ∧ OrderOK p.2) (hg : GoodConns cs) (hno : outs cs = [])
    (h : mkNet name modules (cs.map Conn.text) = .ok c) (l : Comps) (hl : Layout modules cs l) :
    c.free = (chainPorts l 0).filter fun g => decide (g < c.n ∧ Unconnected c g) := by
  obtain ⟨l', hl', hb⟩ := mkNet_text_ok hg h
  obtain rfl := layout_unique hl hl'
  have hch : ChildrenOK l := layout_children hl (P := fun d => Reciprocal d.n d.C) (fun _ _ h => h)
    fun p hp => built_reciprocal (hm p hp).1
  have hord : ∀ p ∈ l, OrderOK p.2 := layout_children hl (fun _ _ h => h) fun p hp => (hm p hp).2
  obtain ⟨hpo, hC, hn, -⟩ := netBuffers_ok hb
  have hrec := setC_reciprocal hch hC
  have hlen := blockOrder_length (l := l) fun p hp => by simpa using (hord p hp).length_eq
  have hcont : Contiguous cs := by unfold Contiguous; rw [hno]; simp
  obtain ⟨es, hF, -, -, -, -, he⟩ := setPortOrder_contiguous hg hch
    (fun p hp => by simpa using (hord p hp).length_eq)
    (fun p hp => (hord p hp).nodup_iff.mpr List.nodup_range) hcont hpo
  rw [hno] at hF
  have hes : es = [] := by simpa using hF
  subst hes
  have he' : c.portOrder = blockOrder l := by
    rw [he]
    simp only [extList, List.length_nil, List.range_zero, List.filterMap_nil, List.nil_append,
      List.not_mem_nil, not_false_eq_true, decide_true, List.filter_true]
    rw [← hlen, map_getD_range]
  rw [free_eq hrec.2.1]
  unfold freePorts
  rw [he']
  have := blockOrder_filter (fun g => decide (g < c.n ∧ Unconnected c g)) l 0 ?_ ?_
  · simpa using this
  · intro pre post x d p hlp hp hu k hk
    simp only [zero_add, decide_eq_true_eq] at hu
    have hbl : Block l x d (width pre) := by
      refine ⟨pre, post, hlp, ?_, rfl⟩
      have := layout_nodup hl
      rw [hlp, List.map_append, List.map_cons, List.nodup_append'] at this
      intro hx
      exact this.2.2 hx (by simp)
    have hkey : ∀ i j, d.C i j ≠ 0 → i < d.n → j < d.n → c.C (width pre + i) (width pre + j) ≠ 0 := by
      intro i j hne hi hj
      have hin : InsideConn l (width pre + i) (width pre + j) :=
        ⟨x, d, width pre, i, j, hbl, hi, hj, rfl, rfl, hne⟩
      rw [← blockC_iff (layout_nodup hl)] at hin
      have hd := declared_iff hch hg hC (width pre + i) (width pre + j)
      by_cases hdec : Declared l cs (width pre + i) (width pre + j)
      · rw [hd.1 hdec]; exact one_ne_zero
      · rw [hd.2 hdec]; exact hin
    have hlt : width pre + k < c.n := by
      rw [hn, hlp]; simp only [width, List.map_append, List.sum_append, List.map_cons, List.sum_cons]; omega
    have hu2 := hu.2 (width pre + k) hlt
    constructor
    · by_contra hne; exact hkey p k hne hp hk hu2.1
    · by_contra hne; exact hkey k p hne hk hp hu2.2
  · intro q hq p hp
    exact List.mem_range.mp ((hord q hq).mem_iff.mp hp)

/-- Two rotated waveguides in a row: the free ports come in the sub-networks' numbering. -/
example : okAnd (mkNet none [(['w'], passive 3)] (rotConns.map Conn.text)) (fun d =>
    okAnd (mkNet none [(['s'], d), (['t'], d)] (([.inner ['s'] 1 ['t'] 0] : List Conn).map Conn.text)) fun c =>
      decide (c.free = [1, 0, 5, 3] ∧ outs [.inner ['s'] 1 ['t'] 0] = [])) = true := by decide +kernel

/-! ## Examples of use -/

theorem ring_clean : ∀ p ∈ ringModules, Built p.2 ∧ OrderOK p.2 ∧ AtMostOne p.2.C := by
  intro p hp
  simp only [ringModules, List.mem_cons, List.not_mem_nil, or_false] at hp
  rcases hp with rfl | rfl
  · exact ⟨passive_built 2 (by decide), passive_order 2, passive_atMostOne 2⟩
  · exact ⟨passive_built 4 (by decide), passive_order 4, passive_atMostOne 4⟩

theorem ring_contiguous : Contiguous ringConns := by unfold Contiguous; decide

example : mkNet none ringModules ((Conn.inner ['d'] 0 ['x'] 0 :: ringConns).map Conn.text) = .error .keyError :=
  C16_unknown_component none ringModules _ (goodConns_dec (by decide)) (Conn.inner ['d'] 0 ['x'] 0) (by simp) ['x'] (by decide) (by decide)

example : mkNet none ringModules ["d:2:w:one".toList] = .error .keyError :=
  C16_bad_part none ringModules _ "d:2:w:one".toList (by simp) "one".toList (by decide +kernel) (by decide +kernel) (by decide)

theorem ring_high : TooHigh ringModules ['d'] 4 := ⟨passive 4, by simp [ringModules, dictGet], by decide +kernel⟩

example : mkNet none ringModules ((ringConns ++ [Conn.inner ['d'] 4 ['w'] 0]).map Conn.text) = .error .valueError ∧
    mkNet none ringModules ((ringConns ++ [Conn.inner ['d'] 0 ['d'] 0]).map Conn.text) = .error .indexError ∧
    mkNet none ringModules ((ringConns ++ [Conn.outer ['d'] 4 2]).map Conn.text) = .error .indexError := by
  obtain ⟨c, hc, -⟩ := ring_net
  have hd : GoodName ['d'] := goodName_dec (by decide)
  have hw : GoodName ['w'] := goodName_dec (by decide)
  exact ⟨C16_port_too_high none _ _ c ring_built ring_good hc _ _ _ _ (by decide) (by decide) hd hw (by simp) (.inl ring_high),
    C16_same_port none _ _ c ring_good hc _ _ (by decide) hd,
    C16_external_too_high none _ _ c ring_built ring_good hc _ _ _ (by decide) hd ring_high⟩

/-- Every port of the ring has at most one partner, none is its own, and the external ports are numbered as declared. -/
example : ∃ c, mkNet none ringModules (ringConns.map Conn.text) = .ok c ∧ AtMostOne c.C ∧ OrderOK c ∧ c.free = freePorts c ∧
    ∀ l, Layout ringModules ringConns l → NumberedAsDeclared l ringConns c ∧ ∀ i, ¬ Declared l ringConns i i := by
  obtain ⟨c, hc, -⟩ := ring_net
  have h1 := C17_numbering none ringModules ringConns c (fun p hp => ⟨ring_built p hp, by
    simp only [ringModules, List.mem_cons, List.not_mem_nil, or_false] at hp
    rcases hp with rfl | rfl <;> rfl⟩) ring_good ring_contiguous (by unfold Separate; decide) hc
  exact ⟨c, hc, (C24_pairing_partial none _ _ c ring_clean ring_good (by unfold UsedOnce; decide) hc).1,
    C19_permutation_partial none _ _ c (fun p hp => ⟨(ring_clean p hp).1, (ring_clean p hp).2.1⟩) ring_good ring_contiguous hc,
    h1.1, fun l hl => ⟨h1.2 l hl, C16_no_self_partial none _ _ c (fun p hp => ⟨(ring_clean p hp).1, (ring_clean p hp).2.1⟩) ring_good
      (by decide) hc l hl⟩⟩

/-- Two components in a row without declared external ports. -/
example : ∃ c, mkNet none ringModules ([Conn.inner ['d'] 2 ['w'] 0].map Conn.text) = .ok c ∧
    ∀ l, Layout ringModules [Conn.inner ['d'] 2 ['w'] 0] l → c.free = (chainPorts l 0).filter fun g => decide (g < c.n ∧ Unconnected c g) := by
  have h : okAnd (mkNet none ringModules ([Conn.inner ['d'] 2 ['w'] 0].map Conn.text)) (fun _ => true) = true := by
    decide +kernel
  obtain ⟨c, hc, -⟩ := okAnd_iff.mp h
  exact ⟨c, hc, fun l hl => C18_numbering_partial none _ _ c (fun p hp => ⟨(ring_clean p hp).1, (ring_clean p hp).2.1⟩)
    (goodConns_dec (by decide)) rfl hc l hl⟩

end PT
