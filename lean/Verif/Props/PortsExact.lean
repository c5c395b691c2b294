import Verif.Props.Ports

/-!
# C19, C24: exactly when the port order of a network is a permutation of its ports, and exactly when every port has at most one partner
-/

namespace PT
open Spec

/-- The last declaration of external number `j` is of port `g` of the network with layout `l`. -/
def Spec.LastDeclared (l : Comps) (cs : List Conn) (j : ℤ) (g : ℕ) : Prop :=
  ∃ pre o post, outs cs = pre ++ o :: post ∧ o.2 = j ∧ PortOf l o.1.1 o.1.2 g ∧ j ∉ post.map Prod.snd

/-- `j` is one of the numbers that are used, if numbers are given without gaps from 0. -/
def Spec.InRange (cs : List Conn) (j : ℤ) : Prop := 0 ≤ j ∧ j < ((outs cs).map Prod.snd).toFinset.card

/-- No port of a network with `n` ports is lost: the numbers in range belong to different ports, and the ports declared only with
numbers out of range happen to be the last ports of the network. -/
def Spec.NoneLost (n : ℕ) (l : Comps) (cs : List Conn) : Prop :=
  (∀ j j' g, InRange cs j → InRange cs j' → LastDeclared l cs j g → LastDeclared l cs j' g → j = j') ∧
  ∃ r ≤ n, ∀ g, ((∃ j, LastDeclared l cs j g) ∧ ¬ ∃ j, InRange cs j ∧ LastDeclared l cs j g) ↔ n - r ≤ g ∧ g < n

theorem ok_injE {α : Type} {a b : α} (h : (Except.ok a : Except PyErr α) = .ok b) : a = b := by cases h; rfl

theorem orderDict_snoc (es : List (ℕ × ℤ)) (e : ℕ × ℤ) : orderDict (es ++ [e]) = dictSet e.2 e.1 (orderDict es) := by
  simp [orderDict]

theorem orderDict_keys (es : List (ℕ × ℤ)) :
    ((orderDict es).map Prod.fst).Nodup ∧ ∀ j, j ∈ (orderDict es).map Prod.fst ↔ j ∈ es.map Prod.snd := by
  induction es using List.reverseRecOn with
  | nil => simp [orderDict]
  | append_singleton es e ih =>
    rw [orderDict_snoc]
    by_cases h : e.2 ∈ (orderDict es).map Prod.fst
    · rw [dictSet_keys h]
      refine ⟨ih.1, fun j => ?_⟩
      rw [ih.2, List.map_append, List.mem_append]
      refine ⟨Or.inl, fun hj => hj.elim id fun hj => ?_⟩
      rw [List.map_singleton, List.mem_singleton] at hj
      exact hj ▸ (ih.2 _).mp h
    · rw [dictSet_new h]
      refine ⟨?_, fun j => ?_⟩
      · rw [List.map_append, List.nodup_append]
        refine ⟨ih.1, by simp, ?_⟩
        intro a ha b hb
        simp only [List.map_cons, List.map_nil, List.mem_singleton] at hb
        rintro rfl
        exact h (hb ▸ ha)
      · simp only [List.map_append, List.mem_append, ih.2, List.map_cons, List.map_nil]

theorem orderDict_get (es : List (ℕ × ℤ)) (j : ℤ) (g : ℕ) : dictGet j (orderDict es) = some g ↔
    ∃ pre post, es = pre ++ (g, j) :: post ∧ j ∉ post.map Prod.snd := by
  induction es using List.reverseRecOn with
  | nil => simp [orderDict, dictGet]
  | append_singleton es e ih =>
    rw [orderDict_snoc, dictGet_set]
    constructor
    · intro h
      split at h
      · rename_i hj
        refine ⟨es, [], ?_, by simp⟩
        rw [hj, ← Option.some.inj h]
      · rename_i hj
        obtain ⟨pre, post, rfl, hp⟩ := ih.mp h
        refine ⟨pre, post ++ [e], by simp, ?_⟩
        simp only [List.map_append, List.mem_append, List.map_cons, List.map_nil, List.mem_singleton, not_or]
        exact ⟨hp, hj⟩
    · rintro ⟨pre, post, h, hp⟩
      rcases List.eq_nil_or_concat' post with rfl | ⟨post', e', rfl⟩
      · obtain ⟨-, h2⟩ := List.append_inj' h rfl
        cases h2
        simp
      · rw [← List.cons_append, ← List.append_assoc] at h
        obtain ⟨h1, h2⟩ := List.append_inj' h rfl
        cases h2
        simp only [List.map_append, List.mem_append, List.map_cons, List.map_nil, List.mem_singleton, not_or] at hp
        rw [if_neg hp.2]
        exact ih.mpr ⟨pre, post', h1, hp.1⟩

theorem forall₂_split {α β : Type} {R : α → β → Prop} {pre : List β} {e : β} {post : List β} {os : List α}
    (h : List.Forall₂ R os (pre ++ e :: post)) : ∃ pre' o post', os = pre' ++ o :: post' ∧ R o e ∧ List.Forall₂ R post' post := by
  induction pre generalizing os with
  | nil =>
    cases h with
    | cons h1 h2 => exact ⟨[], _, _, rfl, h1, h2⟩
  | cons p pre ih =>
    cases h with
    | cons h1 h2 =>
      obtain ⟨pre', o, post', rfl, h3, h4⟩ := ih h2
      exact ⟨_ :: pre', o, post', rfl, h3, h4⟩

theorem forall₂_snd {l : Comps} {os : List ((Str × ℤ) × ℤ)} {es : List (ℕ × ℤ)}
    (h : List.Forall₂ (fun o e => PortOf l o.1.1 o.1.2 e.1 ∧ e.2 = o.2) os es) : es.map Prod.snd = os.map Prod.snd := by
  induction h with
  | nil => rfl
  | cons h1 _ ih => simp [h1.2, ih]

theorem portOf_unique {l : Comps} (hl : ChildrenOK l) {x : Str} {i : ℤ} {g g' : ℕ} (h : PortOf l x i g) (h' : PortOf l x i g') :
    g = g' := ok_injE (((globalPort_iff hl).mpr h).symm.trans ((globalPort_iff hl).mpr h'))

theorem declared_get {l : Comps} (hl : ChildrenOK l) {cs : List Conn} {es : List (ℕ × ℤ)}
    (h : List.Forall₂ (fun o e => PortOf l o.1.1 o.1.2 e.1 ∧ e.2 = o.2) (outs cs) es) (j : ℤ) (g : ℕ) :
    dictGet j (orderDict es) = some g ↔ LastDeclared l cs j g := by
  rw [orderDict_get]
  constructor
  · rintro ⟨pre, post, rfl, hp⟩
    obtain ⟨pre', o, post', h1, h2, h3⟩ := forall₂_split h
    exact ⟨pre', o, post', h1, h2.2.symm, h2.1, forall₂_snd h3 ▸ hp⟩
  · rintro ⟨pre, o, post, h1, h2, h3, h4⟩
    rw [h1] at h
    obtain ⟨pre', e, post', rfl, h5, h6⟩ := forall₂_split h.flip
    refine ⟨pre', post', ?_, forall₂_snd h6.flip ▸ h4⟩
    have : e = (g, j) := Prod.ext (portOf_unique hl h5.1 h3) (h5.2.trans h2)
    rw [this]

theorem applyOrder_eq {clone order po : List ℕ} (h : applyOrder clone order = .ok po) :
    order.length ≤ clone.length ∧ po = (order ++ (List.range clone.length).drop order.length).map fun i => clone.getD i 0 := by
  unfold applyOrder at h
  split at h
  · cases h
  rename_i hlen
  refine ⟨by omega, ?_⟩
  cases hm : mapE (cloneAt clone) order with
  | error e => rw [hm] at h; cases h
  | ok vs =>
    rw [hm] at h
    rw [← ok_injE h, List.map_append, List.map_drop, map_getD_range]
    congr 1
    rw [mapE_ok] at hm
    clear h hlen
    induction hm with
    | nil => rfl
    | cons h1 _ ih =>
      rw [ih, List.map_cons]
      congr 1
      unfold cloneAt at h1
      split at h1
      · cases h1
      · rename_i v hv
        rw [← ok_injE h1, List.getD_eq_getElem?_getD, hv, Option.getD_some]

/-- Renaming by a permutation keeps permutations. -/
theorem perm_map_iff {n : ℕ} {clone L : List ℕ} (hc : clone.Perm (List.range n)) (hL : ∀ i ∈ L, i < n) (hlen : L.length = n) :
    (L.map fun i => clone.getD i 0).Perm (List.range n) ↔ L.Nodup := by
  have hn : clone.length = n := by simpa using hc.length_eq
  have hnd : clone.Nodup := hc.nodup_iff.mpr List.nodup_range
  have inj : ∀ i ∈ L, ∀ j ∈ L, clone.getD i 0 = clone.getD j 0 → i = j := by
    intro i hi j hj h
    have hi' : i < clone.length := hn ▸ hL i hi
    have hj' : j < clone.length := hn ▸ hL j hj
    simp only [List.getD_eq_getElem?_getD, List.getElem?_eq_getElem hi', List.getElem?_eq_getElem hj', Option.getD_some] at h
    exact (hnd.getElem_inj_iff).mp h
  constructor
  · intro h
    exact List.Nodup.of_map _ (h.nodup_iff.mpr List.nodup_range)
  · intro h
    have h1 := h.map_on inj
    have h2 : (L.map fun i => clone.getD i 0) ⊆ List.range n := by
      intro x hx
      obtain ⟨i, hi, rfl⟩ := List.mem_map.mp hx
      have hi' : i < clone.length := hn ▸ hL i hi
      refine hc.mem_iff.mp ?_
      simp only [List.getD_eq_getElem?_getD, List.getElem?_eq_getElem hi', Option.getD_some]
      exact List.getElem_mem hi'
    exact (h1.subperm h2).perm_of_length_le (by simp [hlen])

open scoped Classical in
/-- C19, exactly when it holds: iff the external numbers below their count belong to different ports, and the ports declared
with other numbers only are the last ones of the network. -/
theorem C19_iff_partial (name : Option Str) (modules : Comps) (cs : List Conn) (c : Comp)
    (hm : ∀ p ∈ modules, Built p.2 ∧ OrderOK p.2) (hg : GoodConns cs)
    (h : mkNet name modules (cs.map Conn.text) = .ok c) :
    ∃ l, Layout modules cs l ∧ (OrderOK c ↔ NoneLost c.n l cs) := by
  obtain ⟨l, hl, hb⟩ := mkNet_text_ok hg h
  refine ⟨l, hl, ?_⟩
  have hch : ChildrenOK l := layout_children hl (P := fun d => Reciprocal d.n d.C) (fun _ _ h => h)
    fun p hp => built_reciprocal (hm p hp).1
  have hord : ∀ p ∈ l, OrderOK p.2 := layout_children hl (fun _ _ h => h) fun p hp => (hm p hp).2
  obtain ⟨hpo, -, hn, -⟩ := netBuffers_ok hb
  have hlen := blockOrder_length (l := l) fun p hp => by simpa using (hord p hp).length_eq
  unfold setPortOrder at hpo
  cases hes : mapE (parseExternal l) (cs.map Conn.text) with
  | error e => rw [hes] at hpo; cases hpo
  | ok es0 =>
  rw [hes] at hpo
  have hF : List.Forall₂ (fun o e => PortOf l o.1.1 o.1.2 e.1 ∧ e.2 = o.2) (outs cs) (es0.filterMap id) :=
    (mapE_parseExternal_text hg hes).imp fun o e ⟨h1, h2⟩ => ⟨(globalPort_iff hch).mp h1, h2⟩
  change applyOrder _ _ = _ at hpo
  generalize es0.filterMap id = es at hF hpo
  obtain ⟨hle, hpo⟩ := applyOrder_eq hpo
  set d := orderDict es with hd
  have hkeys := orderDict_keys es
  rw [← hd] at hkeys
  have hget := declared_get hch hF
  rw [← hd] at hget
  have hcard : d.length = ((outs cs).map Prod.snd).toFinset.card := by
    rw [← forall₂_snd hF, ← List.length_map (f := Prod.fst) (as := d), ← List.toFinset_card_of_nodup hkeys.1]
    congr 1
    ext j
    rw [List.mem_toFinset, List.mem_toFinset]
    exact hkeys.2 j
  have hvals : ∀ g, g ∈ d.map Prod.snd ↔ ∃ j, LastDeclared l cs j g := by
    intro g
    constructor
    · intro hgm
      obtain ⟨p, hp, rfl⟩ := List.mem_map.mp hgm
      exact ⟨p.1, (hget _ _).mp (dictGet_of_mem hkeys.1 hp)⟩
    · rintro ⟨j, hj⟩
      exact List.mem_map.mpr ⟨(j, g), dictGet_mem ((hget _ _).mpr hj), rfl⟩
  set n := width l with hnw
  rw [numPorts_eq, ← hnw] at hle hpo
  rw [hlen] at hle hpo
  have hdn : ∀ g, (∃ j, LastDeclared l cs j g) → g < n := by
    rintro g ⟨j, pre, o, post, -, -, h3, -⟩
    exact h3.lt
  have hA : ∀ g, g ∈ ((List.range d.length).filterMap fun (j : ℕ) => dictGet (j : ℤ) d) ↔ ∃ j, InRange cs j ∧ LastDeclared l cs j g := by
    intro g
    rw [List.mem_filterMap]
    constructor
    · rintro ⟨j, hj, hj'⟩
      exact ⟨j, ⟨by omega, by rw [← hcard]; exact_mod_cast List.mem_range.mp hj⟩, (hget _ _).mp hj'⟩
    · rintro ⟨j, ⟨h0, h1⟩, h2⟩
      rw [← hcard] at h1
      refine ⟨j.toNat, List.mem_range.mpr (by omega), ?_⟩
      rw [Int.toNat_of_nonneg h0]
      exact (hget _ _).mpr h2
  have hAn : ((List.range d.length).filterMap fun (j : ℕ) => dictGet (j : ℤ) d).Nodup ↔
      ∀ j j' g, InRange cs j → InRange cs j' → LastDeclared l cs j g → LastDeclared l cs j' g → j = j' := by
    rw [List.Nodup, List.pairwise_filterMap]
    constructor
    · intro hp j j' g h1 h2 h3 h4
      by_contra hne
      unfold InRange at h1 h2
      rw [← hcard] at h1 h2
      have key : ∀ a b : ℕ, a < b → b < d.length → dictGet (a : ℤ) d = some g → dictGet (b : ℤ) d = some g → False := by
        intro a b hab hb ha' hb'
        have := List.pairwise_iff_getElem.mp hp a b (by simp; omega) (by simpa using hb) hab
        simp only [List.getElem_range] at this
        exact this g ha' g hb' rfl
      rw [← hget] at h3 h4
      rw [← Int.toNat_of_nonneg h1.1] at h3
      rw [← Int.toNat_of_nonneg h2.1] at h4
      rcases lt_or_gt_of_ne (show j.toNat ≠ j'.toNat by omega) with hlt | hlt
      · exact key _ _ hlt (by omega) h3 h4
      · exact key _ _ hlt (by omega) h4 h3
    · intro hinj
      refine (List.pairwise_lt_range).imp_of_mem ?_
      intro a b ha hb hab g hg' g' hg'' he
      subst he
      have := hinj a b g ⟨by omega, by rw [← hcard]; exact_mod_cast List.mem_range.mp ha⟩
        ⟨by omega, by rw [← hcard]; exact_mod_cast List.mem_range.mp hb⟩ ((hget _ _).mp hg') ((hget _ _).mp hg'')
      omega
  unfold orderOf at hle hpo
  generalize hAdef : ((List.range d.length).filterMap fun (j : ℕ) => dictGet (j : ℤ) d) = A at hle hpo hA hAn
  generalize hBdef : ((List.range n).filter fun i => decide (i ∉ d.map Prod.snd)) = B at hle hpo
  have hB : ∀ g, g ∈ B ↔ g < n ∧ ¬ ∃ j, LastDeclared l cs j g := by
    intro g
    rw [← hBdef, List.mem_filter, List.mem_range, decide_eq_true_eq, hvals]
  have hBn : B.Nodup := hBdef ▸ List.nodup_range.filter _
  have hD : ∀ g, g ∈ (List.range n).drop (A ++ B).length ↔ (A ++ B).length ≤ g ∧ g < n := by
    intro g
    rw [List.range_eq_range', List.drop_range', List.mem_range']
    constructor
    · rintro ⟨i, hi, rfl⟩; constructor <;> omega
    · intro hg'; exact ⟨g - (A ++ B).length, by omega, by omega⟩
  have hAB : A.Disjoint B := fun g ha hb => ((hB g).mp hb).2 (((hA g).mp ha).imp fun _ h => h.2)
  unfold OrderOK
  rw [hpo, hn, perm_map_iff (blockOrder_perm hord)]
  · unfold NoneLost
    rw [← hAn, List.nodup_append', List.nodup_append']
    have key : A.Nodup → (A ++ B).length ≤ n → ((Finset.range n).filter fun g => (∃ j, LastDeclared l cs j g) ∧
        ¬ ∃ j, InRange cs j ∧ LastDeclared l cs j g).card = n - (A ++ B).length := by
      intro ha _
      have : (Finset.range n).filter (fun g => (∃ j, LastDeclared l cs j g) ∧ ¬ ∃ j, InRange cs j ∧ LastDeclared l cs j g) =
          Finset.range n \ (A ++ B).toFinset := by
        ext g
        rw [Finset.mem_filter, Finset.mem_sdiff, List.mem_toFinset, List.mem_append, hA, hB, Finset.mem_range]
        constructor
        · rintro ⟨h1, h2, h3⟩
          exact ⟨h1, fun h4 => h4.elim h3 fun h4 => h4.2 h2⟩
        · rintro ⟨h1, h2⟩
          refine ⟨h1, by_contra fun h3 => h2 (.inr ⟨h1, h3⟩), fun h3 => h2 (.inl h3)⟩
      rw [this, Finset.card_sdiff_of_subset, Finset.card_range, List.toFinset_card_of_nodup (List.nodup_append'.mpr ⟨ha, hBn, hAB⟩)]
      intro g hg'
      rw [List.mem_toFinset, List.mem_append, hA, hB] at hg'
      rw [Finset.mem_range]
      exact hg'.elim (fun ⟨j, _, h⟩ => hdn g ⟨j, h⟩) And.left
    constructor
    · rintro ⟨⟨ha, -, -⟩, -, hdis⟩
      refine ⟨ha, n - (A ++ B).length, by omega, fun g => ?_⟩
      have hsub : (Finset.Ico (A ++ B).length n) ⊆ (Finset.range n).filter fun g => (∃ j, LastDeclared l cs j g) ∧
          ¬ ∃ j, InRange cs j ∧ LastDeclared l cs j g := by
        intro g hg'
        rw [Finset.mem_Ico] at hg'
        have h1 := fun hx => hdis hx ((hD g).mpr hg')
        rw [List.mem_append, hA, hB] at h1
        rw [Finset.mem_filter, Finset.mem_range]
        exact ⟨hg'.2, by_contra fun h3 => h1 (.inr ⟨hg'.2, h3⟩), fun h3 => h1 (.inl h3)⟩
      have heq := Finset.eq_of_subset_of_card_le hsub (by rw [key ha hle, Nat.card_Ico])
      have := Finset.ext_iff.mp heq g
      rw [Finset.mem_Ico, Finset.mem_filter, Finset.mem_range] at this
      constructor
      · intro hg'
        have := this.mpr ⟨hdn g hg'.1, hg'⟩
        omega
      · intro hg'
        exact (this.mp (by omega)).2
    · rintro ⟨ha, r, hr, hg'⟩
      refine ⟨⟨ha, hBn, hAB⟩, (List.nodup_range.sublist (List.drop_sublist _ _)), ?_⟩
      have hk := key ha hle
      have : (Finset.range n).filter (fun g => (∃ j, LastDeclared l cs j g) ∧ ¬ ∃ j, InRange cs j ∧ LastDeclared l cs j g) =
          Finset.Ico (n - r) n := by
        ext g
        rw [Finset.mem_filter, hg', Finset.mem_Ico, Finset.mem_range]
        omega
      rw [this, Nat.card_Ico] at hk
      intro g h1 h2
      rw [hD] at h2
      rw [List.mem_append, hA, hB] at h1
      have h3 := (hg' g).mpr ⟨by omega, h2.2⟩
      exact h1.elim h3.2 fun h4 => h4.2 h3.1
  · intro i hi
    rw [List.mem_append, List.mem_append, hA, hB, hD] at hi
    rcases hi with (⟨j, -, hj⟩ | hi) | hi
    · exact hdn i ⟨j, hj⟩
    · exact hi.1
    · exact hi.2
  · rw [List.length_append, List.length_drop, List.length_range]
    omega

/-- Not vacuous: a gap that does no harm (numbers 0 and 7, for the first and the last port) and one that does (C19_violation). -/
example : ∃ c l, mkNet none [(['a'], passive 3)] ([Conn.outer ['a'] 0 0, .outer ['a'] 2 7].map Conn.text) = .ok c ∧
    Layout [(['a'], passive 3)] [.outer ['a'] 0 0, .outer ['a'] 2 7] l ∧ NoneLost c.n l [.outer ['a'] 0 0, .outer ['a'] 2 7] := by
  have hk : okAnd (mkNet none [(['a'], passive 3)] ([Conn.outer ['a'] 0 0, .outer ['a'] 2 7].map Conn.text))
      (fun c => decide (c.portOrder = [0, 1, 2] ∧ c.n = 3)) = true := by decide +kernel
  obtain ⟨c, hc, hk⟩ := okAnd_iff.mp hk
  simp only [decide_eq_true_eq] at hk
  obtain ⟨l, h1, h2⟩ := C19_iff_partial none _ _ c (by
    intro p hp
    rw [List.mem_singleton.mp hp]; exact ⟨passive_built 3 (by decide), passive_order 3⟩) (goodConns_dec (by decide)) hc
  exact ⟨c, l, hc, h1, h2.mp (by unfold OrderOK; rw [hk.1, hk.2]; exact .refl _)⟩

/-! ## C24 -/

/-- The connections link port `x` of a component to port `y` of a component (in either direction). -/
def Spec.LinkedTo (cs : List Conn) (x y : Str × ℤ) : Prop :=
  Conn.inner x.1 x.2 y.1 y.2 ∈ cs ∨ Conn.inner y.1 y.2 x.1 x.2 ∈ cs

/-- No port is linked to two different ports. -/
def Spec.OnePartner (cs : List Conn) : Prop := ∀ x y y', LinkedTo cs x y → LinkedTo cs x y' → y = y'

theorem declared_exists {l : Comps} (hl : ChildrenOK l) {cs : List Conn} (hg : GoodConns cs) {C : ℕ → ℕ → ℚ}
    (h : setC l (cs.map Conn.text) = .ok C) {a b : Str} {k m : ℤ} (hc : Conn.inner a k b m ∈ cs) :
    (∃ g, PortOf l a k g) ∧ ∃ g, PortOf l b m g := by
  obtain ⟨ps, hps, hC⟩ := setC_ok h
  obtain ⟨p, hp, x, y, hxy, rfl⟩ := forall₂_mem_left (mapE_parseInternal_text hg hps) hc
  obtain ⟨h1, h2, -⟩ := internalPorts_ok hxy
  rw [globalPort_iff hl] at h1 h2
  exact ⟨⟨x, h1⟩, y, h2⟩

/-- C24, exactly when it holds: the ports of an accepted network have at most one partner each if and only if no two declared
connections lead from one port to two different ports. If ports are given by non-negative numbers, this can be read off the
connections: the same connection may be declared any number of times, in both directions, and nothing else twice.
(Missing: the code does not check this.) -/
theorem C24_iff_partial (name : Option Str) (modules : Comps) (cs : List Conn) (c : Comp)
    (hm : ∀ p ∈ modules, Built p.2 ∧ OrderOK p.2 ∧ AtMostOne p.2.C) (hg : GoodConns cs)
    (h : mkNet name modules (cs.map Conn.text) = .ok c) :
    ∃ l, Layout modules cs l ∧
      (AtMostOne c.C ↔ ∀ i j j', Declared l cs i j → Declared l cs i j' → j = j') ∧
      ((∀ e ∈ endpoints cs, 0 ≤ e.2) → (AtMostOne c.C ↔ OnePartner cs)) := by
  obtain ⟨l, hl, hb⟩ := mkNet_text_ok hg h
  have hch : ChildrenOK l := layout_children hl (P := fun d => Reciprocal d.n d.C) (fun _ _ h => h)
    fun p hp => built_reciprocal (hm p hp).1
  have hnd : ∀ p ∈ l, p.2.portOrder.Nodup := layout_children hl (P := fun d => d.portOrder.Nodup)
    (fun _ _ h => h) fun p hp => (hm p hp).2.1.nodup_iff.mpr List.nodup_range
  have h1 : ∀ p ∈ l, AtMostOne p.2.C := layout_children hl (P := fun d => AtMostOne d.C)
    (fun _ _ h => h) fun p hp => (hm p hp).2.2
  obtain ⟨-, hC, hn, -⟩ := netBuffers_ok hb
  have key : ∀ i j, c.C i j ≠ 0 → InsideConn l i j ∨ Declared l cs i j := by
    intro i j hij
    rw [← blockC_iff (layout_nodup hl)]
    by_cases hd : Declared l cs i j
    · exact .inr hd
    · rw [(declared_iff hch hg hC i j).2 hd] at hij
      exact .inl hij
  have hmix : ∀ i j j', InsideConn l i j → Declared l cs i j' → False := by
    rintro i j j' ⟨x, d, s, i', j'', hbl, hi', hj'', rfl, rfl, hne⟩ ⟨a, k, b, m, -, hp⟩
    have hport : ∃ a k, PortOf l a k (s + i') := by
      rcases hp with ⟨h, -⟩ | ⟨-, h⟩
      · exact ⟨_, _, h⟩
      · exact ⟨_, _, h⟩
    obtain ⟨a, k, d', s', p, hbl', hat, he⟩ := hport
    have hpf := hat.mem
    unfold freePorts at hpf
    simp only [List.mem_filter, decide_eq_true_eq] at hpf
    obtain ⟨-, rfl, -, rfl⟩ := block_disjoint hbl hbl' hi' hpf.2.1 he
    exact hne (hpf.2.2 _ hj'').1
  have hiff : AtMostOne c.C ↔ ∀ i j j', Declared l cs i j → Declared l cs i j' → j = j' := by
    constructor
    · intro ha i j j' hj hj'
      refine ha i j j' ?_ ?_
      · rw [(declared_iff hch hg hC i j).1 hj]; exact one_ne_zero
      · rw [(declared_iff hch hg hC i j').1 hj']; exact one_ne_zero
    · intro ha i j j' hj hj'
      rcases key i j hj with h | h <;> rcases key i j' hj' with h' | h'
      · obtain ⟨x, d, s, i1, j1, hbl, hi1, hj1, rfl, rfl, hne⟩ := h
        obtain ⟨x', d', s', i2, j2, hbl', hi2, hj2, he, rfl, hne'⟩ := h'
        obtain ⟨-, rfl, rfl, rfl⟩ := block_disjoint hbl hbl' hi1 hi2 he
        rw [h1 _ hbl.mem _ _ _ hne hne']
      · exact absurd h' (fun h' => hmix _ _ _ h h')
      · exact absurd h (fun h => hmix _ _ _ h' h)
      · exact ha i j j' h h'
  refine ⟨l, hl, hiff, fun hpos => hiff.trans ⟨fun ha x y y' hy hy' => ?_, fun ho i j j' hj hj' => ?_⟩⟩
  · have hp : ∀ {x y : Str × ℤ}, LinkedTo cs x y → 0 ≤ x.2 ∧ 0 ≤ y.2 ∧ (∃ g, PortOf l x.1 x.2 g) ∧ (∃ g, PortOf l y.1 y.2 g) ∧
        ∀ g g', PortOf l x.1 x.2 g → PortOf l y.1 y.2 g' → Declared l cs g g' := by
      intro x y h
      rcases h with h | h
      · obtain ⟨e1, e2⟩ := declared_exists hch hg hC h
        exact ⟨hpos x (List.mem_flatMap.mpr ⟨_, h, by simp [Conn.ends]⟩), hpos y (List.mem_flatMap.mpr ⟨_, h, by simp [Conn.ends]⟩),
          e1, e2, fun g g' q q' => ⟨_, _, _, _, h, .inl ⟨q, q'⟩⟩⟩
      · obtain ⟨e1, e2⟩ := declared_exists hch hg hC h
        exact ⟨hpos x (List.mem_flatMap.mpr ⟨_, h, by simp [Conn.ends]⟩), hpos y (List.mem_flatMap.mpr ⟨_, h, by simp [Conn.ends]⟩),
          e2, e1, fun g g' q q' => ⟨_, _, _, _, h, .inr ⟨q', q⟩⟩⟩
    obtain ⟨-, p2, ⟨g, hgx⟩, ⟨g1, hg1⟩, hd⟩ := hp hy
    obtain ⟨-, p2', -, ⟨g2, hg2⟩, hd'⟩ := hp hy'
    have := ha g g1 g2 (hd g g1 hgx hg1) (hd' g g2 hgx hg2)
    subst this
    obtain ⟨e1, e2⟩ := portOf_inj hnd p2 p2' hg1 hg2
    exact Prod.ext e1 e2
  · have hr : ∀ {i j : ℕ}, Declared l cs i j → ∃ x y, LinkedTo cs x y ∧ 0 ≤ x.2 ∧ PortOf l x.1 x.2 i ∧ PortOf l y.1 y.2 j := by
      rintro i j ⟨a, k, b, m, hc, hq | hq⟩
      · exact ⟨(a, k), (b, m), .inl hc, hpos (a, k) (List.mem_flatMap.mpr ⟨_, hc, by simp [Conn.ends]⟩), hq.1, hq.2⟩
      · exact ⟨(b, m), (a, k), .inr hc, hpos (b, m) (List.mem_flatMap.mpr ⟨_, hc, by simp [Conn.ends]⟩), hq.2, hq.1⟩
    obtain ⟨x, y, hxy, px, q1, q2⟩ := hr hj
    obtain ⟨x', y', hxy', px', q1', q2'⟩ := hr hj'
    obtain ⟨e1, e2⟩ := portOf_inj hnd px px' q1 q1'
    have : x = x' := Prod.ext e1 e2
    subst this
    have := ho x y y' hxy hxy'
    subst this
    exact portOf_det hch q2 q2'

/-- Not vacuous: the same connection declared twice, the second time backwards, does no harm. -/
example : ∃ c, mkNet none [(['a'], passive 2), (['b'], passive 2)] ([Conn.inner ['a'] 0 ['b'] 0, .inner ['b'] 0 ['a'] 0].map Conn.text) = .ok c ∧
    AtMostOne c.C := by
  have hk : okAnd (mkNet none [(['a'], passive 2), (['b'], passive 2)] ([Conn.inner ['a'] 0 ['b'] 0, .inner ['b'] 0 ['a'] 0].map Conn.text))
      (fun _ => true) = true := by decide +kernel
  obtain ⟨c, hc, -⟩ := okAnd_iff.mp hk
  obtain ⟨l, -, -, h⟩ := C24_iff_partial none _ _ c (by
    intro p hp
    simp only [List.mem_cons, List.not_mem_nil, or_false] at hp
    rcases hp with rfl | rfl <;> exact ⟨passive_built 2 (by decide), passive_order 2, passive_atMostOne 2⟩) (goodConns_dec (by decide)) hc
  refine ⟨c, hc, (h (by decide)).mpr ?_⟩
  rintro x y y' hy hy'
  simp only [LinkedTo, List.mem_cons, List.not_mem_nil, or_false, Conn.inner.injEq] at hy hy'
  obtain ⟨x1, x2⟩ := x
  obtain ⟨y1, y2⟩ := y
  obtain ⟨z1, z2⟩ := y'
  dsimp only at hy hy'
  have hab : (['a'] : Str) ≠ ['b'] := by decide
  rcases hy with (⟨rfl, rfl, rfl, rfl⟩ | ⟨rfl, rfl, rfl, rfl⟩) | (⟨rfl, rfl, rfl, rfl⟩ | ⟨rfl, rfl, rfl, rfl⟩) <;>
    rcases hy' with (⟨h1, -, rfl, rfl⟩ | ⟨h1, -, rfl, rfl⟩) | (⟨rfl, rfl, h1, -⟩ | ⟨rfl, rfl, h1, -⟩) <;>
    first | rfl | exact absurd h1 hab | exact absurd h1 hab.symm

end PT
