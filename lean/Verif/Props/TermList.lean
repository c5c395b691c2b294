import Verif.Props.Terminate
import Verif.Proof.Chain

/-!
# C140: terminating a network with a list of terms
-/

namespace PT
open Spec

/-- The different entries of a list, in the order in which they first occur. -/
def Spec.firstOnly (l : List Str) : List Str := l.foldl (fun acc x => if x ∈ acc then acc else acc ++ [x]) []

/-- `t` is the last term called `x`. -/
def Spec.LastNamed (l : List Comp) (x : Str) (t : Comp) : Prop :=
  ∃ pre post, l = pre ++ t :: post ∧ t.name = some x ∧ ∀ u ∈ post, u.name ≠ some x

/-- A term with a usable name, not that of the network. -/
def Spec.ProperTerm (nw : Str) (t : Comp) : Prop :=
  OnePort t ∧ ∃ x, t.name = some x ∧ AttrName x ∧ x ≠ ['b', 'a', 's', 'e'] ∧ x ≠ nw

/-- The full statement: a network terminated with a list of proper terms, one per free port, has no free port left, or an
exception is raised. -/
def C140_statement : Prop := ∀ (s : NetState) (c : Comp) (terms : List Comp) (name : Option Str) (nw : NetState) (d : Comp),
  s.buf = some c → s.name = none → Built c → OrderOK c → AtMostOne c.C → (∀ t ∈ terms, ProperTerm s.cls t) →
  terms.length = (freePorts c).length → terminate s (.list terms) name = .ok nw → nw.buf = some d → d.terminated = true

theorem firstOnly_snoc (l : List Str) (x : Str) :
    firstOnly (l ++ [x]) = if x ∈ firstOnly l then firstOnly l else firstOnly l ++ [x] := by
  unfold firstOnly
  rw [List.foldl_append]
  rfl

theorem mem_firstOnly (l : List Str) (x : Str) : x ∈ firstOnly l ↔ x ∈ l := by
  induction l using List.reverseRecOn with
  | nil => simp [firstOnly]
  | append_singleton l y ih =>
    rw [firstOnly_snoc]
    split
    · rename_i h
      rw [List.mem_append, List.mem_singleton, ih]
      exact ⟨.inl, fun h' => h'.elim id fun e => e ▸ ih.mp (e ▸ h)⟩
    · simp [ih]

theorem firstOnly_nodup (l : List Str) : (firstOnly l).Nodup := by
  induction l using List.reverseRecOn with
  | nil => simp [firstOnly]
  | append_singleton l y ih =>
    rw [firstOnly_snoc]
    split
    · exact ih
    · rename_i h
      rw [List.nodup_append']
      exact ⟨ih, by simp, fun z hz hz' => h (List.mem_singleton.mp hz' ▸ hz)⟩

theorem firstOnly_length (l : List Str) : (firstOnly l).length ≤ l.length ∧ ((firstOnly l).length = l.length ↔ l.Nodup) := by
  induction l using List.reverseRecOn with
  | nil => simp [firstOnly]
  | append_singleton l y ih =>
    rw [firstOnly_snoc]
    split
    · rename_i h
      rw [mem_firstOnly] at h
      rw [List.length_append, List.length_singleton]
      refine ⟨by omega, ⟨fun e => by omega, fun hn => ?_⟩⟩
      rw [List.nodup_append'] at hn
      exact absurd (List.mem_singleton_self y) (hn.2.2 h)
    · rename_i h
      rw [mem_firstOnly] at h
      rw [List.length_append, List.length_append, List.length_singleton, List.nodup_append']
      refine ⟨by omega, ⟨fun e => ⟨ih.2.mp (by omega), by simp, fun z hz hz' => h (List.mem_singleton.mp hz' ▸ hz)⟩, fun hn => ?_⟩⟩
      have := ih.2.mpr hn.1
      omega

/-- The dictionary made of a list of named terms. -/
theorem termDict_list (terms : List Comp) (n : ℕ) (h : ∀ t ∈ terms, t.name ≠ none) :
    ∃ d : Comps, termDict n (.list terms) = .ok d ∧ d.map Prod.fst = firstOnly (terms.filterMap Comp.name) ∧
      ∀ x t, (x, t) ∈ d ↔ LastNamed terms x t := by
  have key : ∃ ps : Comps, mapE namedTerm terms = .ok ps ∧ ps.map Prod.snd = terms ∧
      (∀ p ∈ ps, p.2.name = some p.1) := by
    induction terms with
    | nil => exact ⟨[], rfl, rfl, by simp⟩
    | cons t terms ih =>
      obtain ⟨ps, h1, h2, h3⟩ := ih fun u hu => h u (by simp [hu])
      obtain ⟨x, hx⟩ := Option.ne_none_iff_exists'.mp (h t (by simp))
      refine ⟨(x, t) :: ps, ?_, by simp [h2], ?_⟩
      · unfold mapE
        have : namedTerm t = .ok (x, t) := by unfold namedTerm; rw [hx]
        rw [this, h1]
      · intro p hp
        rcases List.mem_cons.mp hp with rfl | hp
        · exact hx
        · exact h3 p hp
  obtain ⟨ps, h1, h2, h3⟩ := key
  refine ⟨ps.foldl (fun d p => dictSet p.1 p.2 d) [], ?_, ?_⟩
  · show (mapE namedTerm terms).map _ = _
    rw [h1]; rfl
  subst h2
  clear h1 h
  induction ps using List.reverseRecOn with
  | nil =>
    refine ⟨rfl, fun x t => ⟨fun h => absurd h List.not_mem_nil, ?_⟩⟩
    rintro ⟨pre, post, he, -⟩
    simp at he
  | append_singleton ps p ih =>
    obtain ⟨ih1, ih2⟩ := ih fun q hq => h3 q (by simp [hq])
    have hp := h3 p (by simp)
    rw [List.foldl_append]
    simp only [List.foldl_cons, List.foldl_nil]
    generalize hd : ps.foldl (fun d p => dictSet p.1 p.2 d) [] = d at ih1 ih2
    have hnd : (d.map Prod.fst).Nodup := by rw [ih1]; exact firstOnly_nodup _
    have hkeys : (dictSet p.1 p.2 d).map Prod.fst = firstOnly (((ps ++ [p]).map Prod.snd).filterMap Comp.name) := by
      rw [List.map_append, List.filterMap_append]
      have : List.filterMap Comp.name (List.map Prod.snd [p]) = [p.1] := by simp [hp]
      rw [this, firstOnly_snoc, ← ih1]
      split
      · rename_i hm; exact dictSet_keys hm
      · rename_i hm; rw [dictSet_new hm]; simp
    refine ⟨hkeys, fun x t => ?_⟩
    have hnd' : ((dictSet p.1 p.2 d).map Prod.fst).Nodup := by rw [hkeys]; exact firstOnly_nodup _
    have hget : ∀ {e : Comps}, (e.map Prod.fst).Nodup → ((x, t) ∈ e ↔ dictGet x e = some t) := by
      intro e he
      exact ⟨fun hm => dictGet_of_mem he hm, fun hm => dictGet_mem hm⟩
    rw [hget hnd', dictGet_set]
    by_cases hx : x = p.1
    · rw [if_pos hx, Option.some.injEq]
      constructor
      · rintro rfl
        exact ⟨ps.map Prod.snd, [], by simp, by rw [hx]; exact hp, by simp⟩
      · rintro ⟨pre, post, he, h4, h5⟩
        rcases List.eq_nil_or_concat post with rfl | ⟨post', u, rfl⟩
        · rw [List.map_append] at he
          have := (List.append_inj' he rfl).2
          simpa using this
        · rw [List.map_append, List.concat_eq_append, ← List.cons_append, ← List.append_assoc] at he
          have := (List.append_inj' he rfl).2
          have hu : p.2 = u := by simpa using this
          exact absurd (by rw [← hu, hx]; exact hp) (h5 u (by simp))
    · rw [if_neg hx, ← hget hnd, ih2]
      constructor
      · rintro ⟨pre, post, he, h4, h5⟩
        refine ⟨pre, post ++ [p.2], by rw [List.map_append, he]; simp, h4, ?_⟩
        intro u hu
        rcases List.mem_append.mp hu with hu | hu
        · exact h5 u hu
        · rw [List.mem_singleton.mp hu, hp]
          exact fun e => hx (Option.some.inj e).symm
      · rintro ⟨pre, post, he, h4, h5⟩
        rcases List.eq_nil_or_concat post with rfl | ⟨post', u, rfl⟩
        · rw [List.map_append] at he
          have := (List.append_inj' he rfl).2
          have : p.2 = t := by simpa using this
          rw [← this, hp] at h4
          exact absurd (Option.some.inj h4).symm hx
        · rw [List.map_append, List.concat_eq_append, ← List.cons_append, ← List.append_assoc] at he
          exact ⟨pre, post', (List.append_inj' he rfl).1, h4, fun v hv => h5 v (by simp [hv])⟩

theorem terminate_list (s : NetState) (terms : List Comp) (name : Option Str) (d : Comps)
    (h : ∀ n, termDict n (.list terms) = .ok d) : terminate s (.list terms) name = terminate s (.dict d) name := by
  unfold terminate
  cases s.buf with
  | none => rfl
  | some c =>
    simp only
    rw [h]
    rfl

/-- C140, what holds: what the network terminated with a list of proper terms is. The names of the list count, not the terms:
the `i`-th different name goes to free port `i`, and stands for the last term of that name. The network is fully terminated
exactly if there are as many different names as free ports. (Missing: terms with names that occur again later are dropped
silently, and ports stay open.) -/
theorem C140_list_partial (s : NetState) (c : Comp) (terms : List Comp) (name : Option Str) (hb : s.buf = some c)
    (hname : s.name = none) (h : Built c) (ho : OrderOK c) (ha : AtMostOne c.C) (hcls : AttrName s.cls)
    (hcls' : s.cls ≠ ['b', 'a', 's', 'e']) (ht : ∀ t ∈ terms, ProperTerm s.cls t) (hne : terms ≠ [])
    (hle : (firstOnly (terms.filterMap Comp.name)).length ≤ (freePorts c).length) :
    ∃ nw d l, terminate s (.list terms) name = .ok nw ∧ nw.buf = some d ∧ d.n = width l ∧
      (∀ p ∈ l, p.1 = s.cls ∧ p.2 = { c with name := some s.cls } ∨ LastNamed terms p.1 p.2) ∧
      (∀ (i : ℕ) (x : Str), (firstOnly (terms.filterMap Comp.name))[i]? = some x →
        ∃ g g', PortOf l x 0 g ∧ PortOf l s.cls i g' ∧ ∀ k, d.C g k ≠ 0 ↔ k = g') ∧
      (d.terminated = true ↔ (firstOnly (terms.filterMap Comp.name)).length = (freePorts c).length) ∧
      (terms.length = (freePorts c).length → (d.terminated = true ↔ (terms.map Comp.name).Nodup)) := by
  have hnn : ∀ t ∈ terms, t.name ≠ none := by
    intro t hm e
    obtain ⟨-, x, hx, -⟩ := ht t hm
    rw [hx] at e; cases e
  obtain ⟨e, h1, h2, h3⟩ := termDict_list terms 0 hnn
  have hmem : ∀ p ∈ e, p.2 ∈ terms ∧ p.2.name = some p.1 := by
    intro p hp
    obtain ⟨pre, post, he, h4, -⟩ := (h3 p.1 p.2).mp hp
    exact ⟨by rw [he]; simp, h4⟩
  have hok : TermsOK s.cls e := by
    refine ⟨by rw [h2]; exact firstOnly_nodup _, ?_, hcls, ?_, hcls'⟩
    · intro hm
      obtain ⟨p, hp, hpe⟩ := List.mem_map.mp hm
      obtain ⟨q1, q2⟩ := hmem p hp
      obtain ⟨-, x, hx, -, -, hx'⟩ := ht _ q1
      rw [q2] at hx
      exact hx' ((Option.some.inj hx).symm.trans hpe)
    · intro p hp
      obtain ⟨q1, q2⟩ := hmem p hp
      obtain ⟨r1, x, hx, r2, r3, -⟩ := ht _ q1
      rw [q2] at hx
      have := Option.some.inj hx
      subst this
      exact ⟨r2, r3, r1, .inr q2⟩
  have hene : e ≠ [] := by
    rintro rfl
    obtain ⟨t, ts, rfl⟩ := List.exists_cons_of_ne_nil hne
    obtain ⟨-, x, hx, -⟩ := ht t (by simp)
    have : x ∈ firstOnly ((t :: ts).filterMap Comp.name) := by
      rw [mem_firstOnly, List.mem_filterMap]
      exact ⟨t, by simp, hx⟩
    rw [← h2] at this
    cases this
  have hlen : e.length = (firstOnly (terms.filterMap Comp.name)).length := by rw [← h2, List.length_map]
  have ht' := terminate_list s terms name e fun n => h1
  obtain ⟨nw, d, l, g1, g2, g3, g4, g5, -, g7⟩ := C20_terminate s c e name hb hname h ho ha hok hene (by rw [hlen]; exact hle)
  rw [hlen] at g7
  refine ⟨nw, d, l, ht'.trans g1, g2, g3, ?_, by rw [← h2]; exact g5, g7, ?_⟩
  · intro p hp
    rcases g4 p hp with hq | ⟨t, hq, hq'⟩
    · exact .inl hq
    · refine .inr ?_
      have hl := (h3 _ _).mp hq
      have hn := (hmem _ hq).2
      have : p.2 = t := by
        rw [hq']
        simp only at hn
        rw [← hn]
      rw [this]; exact hl
  · intro hlt
    rw [g7, ← hlt]
    have hsome : terms.map Comp.name = (terms.filterMap Comp.name).map some := by
      clear * - hnn
      induction terms with
      | nil => rfl
      | cons t ts ih =>
        obtain ⟨x, hx⟩ := Option.ne_none_iff_exists'.mp (hnn t (by simp))
        rw [List.map_cons, List.filterMap_cons_some hx, List.map_cons, ih fun u hu => hnn u (by simp [hu]), hx]
    have hl : terms.length = (terms.filterMap Comp.name).length := by
      have := congrArg List.length hsome
      simpa using this
    rw [hl, (firstOnly_length _).2, hsome]
    exact (List.nodup_map_iff (Option.some_injective _)).symm

/-- C140 is violated: of two terms called `t` only the second is connected (to port 0), port 1 stays open, nothing is raised. -/
theorem C140_violation : ¬ C140_statement := by
  intro H
  have hp : ∀ t ∈ [{ source with name := some ['t'] }, { detector with name := some ['t'] }], ProperTerm "network".toList t := by
    intro t hm
    simp only [List.mem_cons, List.not_mem_nil, or_false] at hm
    have hn : AttrName ['t'] := ⟨goodName_dec (by decide), by decide, by decide⟩
    rcases hm with rfl | rfl
    · exact ⟨⟨.named _ _ leaf_onePort.2.1.1, leaf_onePort.2.1.2⟩, ['t'], rfl, hn, by decide, by decide⟩
    · exact ⟨⟨.named _ _ leaf_onePort.2.2.1, leaf_onePort.2.2.2⟩, ['t'], rfl, hn, by decide, by decide⟩
  have hf : (freePorts (passive 2)).length = 2 := by decide +kernel
  obtain ⟨nw, d, l, h1, h2, -, -, -, -, h3⟩ := C140_list_partial ⟨none, "network".toList, [], [], [], some (passive 2)⟩ (passive 2)
    [{ source with name := some ['t'] }, { detector with name := some ['t'] }] none rfl rfl (passive_built 2 (by decide))
    (passive_order 2) (passive_atMostOne 2) ⟨goodName_dec (by decide), by decide, by decide⟩ (by decide) hp (by simp)
    (by rw [hf]; decide +kernel)
  have := H ⟨none, "network".toList, [], [], [], some (passive 2)⟩ (passive 2) _ _ _ _ rfl rfl (passive_built 2 (by decide))
    (passive_order 2) (passive_atMostOne 2) hp hf.symm h1 h2
  rw [h3 hf.symm] at this
  simp at this

/-- C140. A list with a term without a name is rejected with `TypeError`, whatever else it contains, if there is a free port. -/
theorem C140_nameless (s : NetState) (c : Comp) (terms : List Comp) (name : Option Str) (hb : s.buf = some c)
    (h : Built c) (ho : OrderOK c) (hf : freePorts c ≠ []) (t : Comp) (ht : t ∈ terms) (hn : t.name = none) :
    terminate s (.list terms) name = .error .typeError := by
  unfold terminate
  rw [hb]
  simp only
  rw [if_neg (by rw [numFree_eq (built_reciprocal h) ho]; simpa using hf)]
  have : mapE namedTerm terms = .error .typeError := by
    induction terms with
    | nil => cases ht
    | cons u terms ih =>
      unfold mapE
      cases hu : u.name with
      | none =>
        have : namedTerm u = .error .typeError := by unfold namedTerm; rw [hu]
        rw [this]
      | some x =>
        have : namedTerm u = .ok (x, u) := by unfold namedTerm; rw [hu]
        rw [this]
        rcases List.mem_cons.mp ht with rfl | ht
        · rw [hn] at hu; cases hu
        · rw [ih ht]
  have e : termDict c.numFree (.list terms) = .error .typeError := by
    show (mapE namedTerm terms).map _ = _
    rw [this]; rfl
  rw [e]

/-- Not vacuous: a source without a name. -/
example : terminate ⟨none, "network".toList, [], [], [], some (passive 2)⟩ (.list [source, { detector with name := some ['t'] }]) none =
    .error .typeError :=
  C140_nameless _ (passive 2) _ none rfl (passive_built 2 (by decide)) (passive_order 2) (by decide +kernel) source (by simp) rfl

theorem foldl_dictSet_mem (e : Comps) : ∀ (m : Comps), (m.map Prod.fst).Nodup →
    ((e.foldl (fun d p => dictSet p.1 p.2 d) m).map Prod.fst).Nodup ∧
    (∀ p ∈ e.foldl (fun d p => dictSet p.1 p.2 d) m, p ∈ e ∨ (p ∈ m ∧ p.1 ∉ e.map Prod.fst)) ∧
    ∀ x, x ∈ m.map Prod.fst ∨ x ∈ e.map Prod.fst → x ∈ (e.foldl (fun d p => dictSet p.1 p.2 d) m).map Prod.fst := by
  induction e with
  | nil => intro m h; exact ⟨h, fun p hp => .inr ⟨hp, by simp⟩, fun x hx => hx.elim id (fun h => by cases h)⟩
  | cons q e ih =>
    intro m h
    have hmem : ∀ p ∈ dictSet q.1 q.2 m, p = q ∨ (p ∈ m ∧ p.1 ≠ q.1) := by
      clear ih
      induction m with
      | nil => intro p hp; simp only [dictSet, List.mem_singleton] at hp; exact .inl hp
      | cons r m ihm =>
        intro p hp
        rw [List.map_cons, List.nodup_cons] at h
        obtain ⟨k', v'⟩ := r
        simp only [dictSet] at hp
        split at hp
        · rename_i hk
          rcases List.mem_cons.mp hp with rfl | hp
          · exact .inl rfl
          · refine .inr ⟨by simp [hp], fun e => h.1 ?_⟩
            simp only
            rw [hk, ← e]
            exact List.mem_map_of_mem hp
        · rename_i hk
          rcases List.mem_cons.mp hp with rfl | hp
          · exact .inr ⟨by simp, hk⟩
          · rcases ihm h.2 p hp with h' | h'
            · exact .inl h'
            · exact .inr ⟨by simp [h'.1], h'.2⟩
    have hkeys : ∀ x, x ∈ (dictSet q.1 q.2 m).map Prod.fst ↔ x = q.1 ∨ x ∈ m.map Prod.fst := by
      intro x
      by_cases hq : q.1 ∈ m.map Prod.fst
      · rw [dictSet_keys hq]
        exact ⟨.inr, fun h => h.elim (fun e => e ▸ hq) id⟩
      · rw [dictSet_new hq]
        simp [or_comm]
    have hnd : ((dictSet q.1 q.2 m).map Prod.fst).Nodup := by
      by_cases hq : q.1 ∈ m.map Prod.fst
      · rw [dictSet_keys hq]; exact h
      · rw [dictSet_new hq, List.map_append, List.nodup_append']
        exact ⟨h, by simp, fun z hz hz' => hq (by
          have e : z = q.1 := by simpa using hz'
          rw [← e]; exact hz)⟩
    obtain ⟨i1, i2, i3⟩ := ih _ hnd
    refine ⟨i1, fun p hp => ?_, fun x hx => ?_⟩
    · rcases i2 p hp with h' | ⟨h', h''⟩
      · exact .inl (by simp [h'])
      · rcases hmem p h' with rfl | ⟨h3, h4⟩
        · exact .inl (by simp)
        · exact .inr ⟨h3, by rw [List.map_cons, List.mem_cons]; exact fun h => h.elim h4 h''⟩
    · apply i3
      rw [hkeys]
      rw [List.map_cons, List.mem_cons] at hx
      rcases hx with hx | hx | hx
      · exact .inl (.inr hx)
      · exact .inl (.inl hx)
      · exact .inr hx

/-- C140. A list with a term that is called like the network itself is rejected (the term replaces the network in the
dictionary of components, and cannot be connected to itself). -/
theorem C140_own_name (s : NetState) (c : Comp) (terms : List Comp) (name : Option Str) (hb : s.buf = some c) (h : Built c)
    (ht : ∀ t ∈ terms, OnePort t ∧ ∃ x, t.name = some x ∧ AttrName x) (t : Comp) (hm : t ∈ terms)
    (hn : t.name = some (s.name.getD s.cls)) : ∃ e, terminate s (.list terms) name = .error e := by
  have hnn : ∀ t ∈ terms, t.name ≠ none := by
    intro t hm e
    obtain ⟨-, x, hx, -⟩ := ht t hm
    rw [hx] at e; cases e
  obtain ⟨e, h1, h2, h3⟩ := termDict_list terms 0 hnn
  have hmem : ∀ p ∈ e, OnePort p.2 ∧ p.2.name = some p.1 ∧ AttrName p.1 := by
    intro p hp
    obtain ⟨pre, post, he, h4, -⟩ := (h3 p.1 p.2).mp hp
    obtain ⟨q1, x, q2, q3⟩ := ht p.2 (by rw [he]; simp)
    rw [q2] at h4
    have := Option.some.inj h4
    subst this
    exact ⟨q1, q2, q3⟩
  rw [terminate_list s terms name e fun n => h1]
  set nw := s.name.getD s.cls with hnw
  have hin : nw ∈ e.map Prod.fst := by
    rw [h2, mem_firstOnly, List.mem_filterMap]
    exact ⟨t, hm, hn⟩
  unfold terminate
  rw [hb]
  simp only [← hnw]
  split
  · exact ⟨_, rfl⟩
  simp only [termDict]
  rw [termConns_text]
  obtain ⟨d1, d2, d3⟩ := foldl_dictSet_mem e [(nw, { c with name := some nw })] (by simp)
  generalize hcomps : e.foldl (fun d p => dictSet p.1 p.2 d) [(nw, { c with name := some nw })] = comps at d1 d2 d3 ⊢
  have hce : ∀ p ∈ comps, p ∈ e := by
    intro p hp
    rcases d2 p hp with h' | ⟨h', h''⟩
    · exact h'
    · rw [List.mem_singleton] at h'
      subst h'
      exact absurd hin h''
  generalize name.getD (nw ++ ['_', 't', 'e', 'r', 'm', 'i', 'n', 'a', 't', 'e', 'd']) = newName
  set cs := termLinks nw (e.map Prod.fst) with hcs
  obtain ⟨p, hp, hpn⟩ := List.mem_map.mp hin
  have hnwn : AttrName nw := hpn ▸ (hmem p hp).2.2
  have hg : GoodConns cs := by
    intro d hd x hx
    obtain ⟨i, t, hti, rfl⟩ := mem_termLinks.mp hd
    simp only [Conn.names, List.mem_cons, List.not_mem_nil, or_false] at hx
    rcases hx with rfl | rfl
    · obtain ⟨p, hp, rfl⟩ := List.mem_map.mp (List.mem_of_getElem? hti)
      exact (hmem p hp).2.2.1
    · exact hnwn.1
  have hbad : ∀ d, mkNet (some newName) comps (cs.map Conn.text) ≠ .ok d := by
    intro d hd
    obtain ⟨l, hl, hbuf⟩ := mkNet_text_ok hg hd
    have hch : ChildrenOK l := layout_children hl (P := fun d => Reciprocal d.n d.C) (fun _ _ h => h)
      fun p hp => built_reciprocal (hmem p (hce p hp)).1.1
    have hone : ∀ p ∈ l, freePorts p.2 = [0] := layout_children hl (P := fun d => freePorts d = [0])
      (fun _ _ h => h) fun p hp => (hmem p (hce p hp)).1.2.2.2
    obtain ⟨-, hC, -⟩ := netBuffers_ok hbuf
    obtain ⟨i, hi⟩ := List.mem_iff_getElem?.mp hin
    have hci : Conn.inner nw 0 nw (i : ℤ) ∈ cs := mem_termLinks.mpr ⟨i, nw, hi, rfl⟩
    obtain ⟨ps, hps, -⟩ := setC_ok hC
    obtain ⟨q, hq, x, y, hxy, rfl⟩ := forall₂_mem_left (mapE_parseInternal_text hg hps) hci
    obtain ⟨-, g2, g3⟩ := internalPorts_ok hxy
    rw [globalPort_iff hch] at g2
    obtain ⟨c', s', p', hbl, hat, -⟩ := g2
    have := hone _ hbl.mem
    simp only at this
    rw [this] at hat
    rcases hat with ⟨k, hk, hk'⟩ | ⟨k, hk, hk', -⟩
    · have : k = 0 := by
        by_contra hne
        obtain ⟨k', rfl⟩ := Nat.exists_eq_succ_of_ne_zero hne
        simp at hk'
      subst this
      exact g3 ⟨rfl, by simpa using hk.symm⟩
    · omega
  have hadd : addAll ⟨some newName, ['n', 'e', 't', 'w', 'o', 'r', 'k'], [], [], [], none⟩ comps =
      .ok ⟨some newName, ['n', 'e', 't', 'w', 'o', 'r', 'k'], comps, [], [], none⟩ := by
    rw [addAll_ok]
    · rw [foldl_dictSet]
      · simp
      · simpa using d1
    · rfl
    · intro p hp
      obtain ⟨-, q2, q3⟩ := hmem p (hce p hp)
      exact ⟨q3.2.1, q3.2.2, .inr q2⟩
  have hcne : comps ≠ [] := by
    rintro rfl
    have := d3 nw (.inr hin)
    cases this
  have hcsne : cs.map Conn.text ≠ [] := by
    simp only [hcs, termLinks]
    cases e with
    | nil => cases hin
    | cons p l => simp
  unfold newNetwork
  rw [hadd]
  simp only [List.nil_append]
  unfold netSetBuffers
  simp only
  rw [if_neg hcsne, if_neg hcne]
  cases hk : mkNet (some newName) comps (cs.map Conn.text) with
  | error e => exact ⟨e, rfl⟩
  | ok d => exact absurd hk (hbad d)

/-- Not vacuous: a source called `network`. -/
example : ∃ e, terminate ⟨none, "network".toList, [], [], [], some (passive 2)⟩
    (.list [{ source with name := some "network".toList }, { detector with name := some ['t'] }]) none = .error e := by
  refine C140_own_name _ (passive 2) _ none rfl (passive_built 2 (by decide)) ?_ { source with name := some "network".toList } (by simp) rfl
  intro t hm
  simp only [List.mem_cons, List.not_mem_nil, or_false] at hm
  rcases hm with rfl | rfl
  · exact ⟨⟨.named _ _ leaf_onePort.2.1.1, leaf_onePort.2.1.2⟩, "network".toList, rfl, goodName_dec (by decide), by decide, by decide⟩
  · exact ⟨⟨.named _ _ leaf_onePort.2.2.1, leaf_onePort.2.2.2⟩, ['t'], rfl, goodName_dec (by decide), by decide, by decide⟩

end PT
