import Verif.Props.Link

/-!
# C20, C21: `terminate` and `unterminate`
-/

namespace PT
open Spec

theorem foldl_dictSet (l : Comps) : ∀ (m : Comps), (m.map Prod.fst ++ l.map Prod.fst).Nodup →
    l.foldl (fun d p => dictSet p.1 p.2 d) m = m ++ l := by
  induction l with
  | nil => intro m _; simp
  | cons p l ih =>
    intro m h
    rw [List.foldl_cons, dictSet_new, ih]
    · simp
    · simpa using h
    · rw [List.nodup_append'] at h
      exact fun hm => h.2.2 hm (by simp)

theorem addAll_ok (l : Comps) : ∀ (s : NetState), s.comps = [] →
    (∀ p ∈ l, p.1 ≠ [] ∧ '.' ∉ p.1 ∧ (p.2.name = none ∨ p.2.name = some p.1)) →
    addAll s l = .ok { s with modules := l.foldl (fun d p => dictSet p.1 p.2 d) s.modules } := by
  induction l with
  | nil => intro s _ _; rfl
  | cons p l ih =>
    obtain ⟨x, c⟩ := p
    intro s hs h
    obtain ⟨h1, h2, h3⟩ := h (x, c) (by simp)
    have : addComponent s x c = ({ s with modules := dictSet x c s.modules }, .ok ()) := by
      unfold addComponent
      rw [if_neg (by simp [hs]), if_neg, if_neg]
      · rintro (h | h)
        · exact h1 h
        · exact h2 h
      · rintro ⟨h, h'⟩
        rcases h3 with h3 | h3
        · exact h h3
        · exact h' h3
    unfold addAll
    rw [this]
    simp only
    rw [ih _ (by simpa using hs) fun q hq => h q (by simp [hq])]
    rfl

theorem termConns_text (nw : Str) (names : List Str) :
    termConns nw names = (termLinks nw names).map Conn.text := by
  unfold termConns termLinks
  rw [List.map_map]
  apply List.map_congr_left
  intro p _
  have : intStr ((p.2 : ℕ) : ℤ) = natStr p.2 := intStr_natCast p.2
  have h0 : intStr 0 = ['0'] := by decide +kernel
  simp [Function.comp, Conn.text, joinColon, this, h0]

theorem numFree_eq {c : Comp} (h : Reciprocal c.n c.C) (ho : OrderOK c) : c.numFree = (freePorts c).length := by
  rw [← free_eq h.2.1]
  unfold Comp.numFree Comp.free
  exact (ho.filter _).length_eq.symm

/-- C20. A network without free ports cannot be terminated. -/
theorem C20_no_free_ports (s : NetState) (c : Comp) (arg : TermArg) (name : Option Str) (hb : s.buf = some c)
    (h : Built c) (ho : OrderOK c) (hf : freePorts c = []) : terminate s arg name = .error .indexError := by
  unfold terminate
  rw [hb]
  simp only
  rw [if_pos]
  rw [numFree_eq (built_reciprocal h) ho, hf]; rfl

/-- The components of the terminated network. -/
def termComps (nw : Str) (c : Comp) (terms : Comps) : Comps := (nw, { c with name := some nw }) :: terms

theorem mem_termLinks {nw : Str} {names : List Str} {d : Conn} :
    d ∈ termLinks nw names ↔ ∃ (i : ℕ) (t : Str), names[i]? = some t ∧ d = .inner t 0 nw (i : ℤ) := by
  unfold termLinks
  simp only [List.mem_map, Prod.exists, List.mem_zipIdx_iff_getElem?]
  constructor
  · rintro ⟨t, i, h, rfl⟩; exact ⟨i, t, h, rfl⟩
  · rintro ⟨i, t, h, rfl⟩; exact ⟨t, i, h, rfl⟩

theorem termLinks_good {nw : Str} {terms : Comps} (h : TermsOK nw terms) :
    GoodConns (termLinks nw (terms.map Prod.fst)) := by
  intro d hd x hx
  obtain ⟨i, t, ht, rfl⟩ := mem_termLinks.mp hd
  simp only [Conn.names, List.mem_cons, List.not_mem_nil, or_false] at hx
  rcases hx with rfl | rfl
  · obtain ⟨p, hp, rfl⟩ := List.mem_map.mp (List.mem_of_getElem? ht)
    exact (h.2.2.2.1 p hp).1.1
  · exact h.2.2.1.1

theorem termLinks_outs (nw : Str) (names : List Str) : outs (termLinks nw names) = [] := by
  rw [List.eq_nil_iff_forall_not_mem]
  intro o ho
  simp only [outs, List.mem_filterMap] at ho
  obtain ⟨d, hd, he⟩ := ho
  obtain ⟨i, t, -, rfl⟩ := mem_termLinks.mp hd
  cases he

theorem dictGet_mem_nodup {l : Comps} (hn : (l.map Prod.fst).Nodup) {p : Str × Comp} (h : p ∈ l) :
    dictGet p.1 l = some p.2 := dictGet_of_mem hn h

theorem termComps_nodup {nw : Str} {c : Comp} {terms : Comps} (h : TermsOK nw terms) :
    ((termComps nw c terms).map Prod.fst).Nodup := by
  simp only [termComps, List.map_cons, List.nodup_cons]
  exact ⟨h.2.1, h.1⟩

theorem termComps_ok {nw : Str} {c : Comp} {terms : Comps} (h : TermsOK nw terms) (hb : Built c)
    (ho : OrderOK c) : ∀ p ∈ termComps nw c terms, Built p.2 ∧ OrderOK p.2 := by
  intro p hp
  rcases List.mem_cons.mp hp with rfl | hp
  · exact ⟨.named c _ hb, ho⟩
  · exact ⟨(h.2.2.2.1 p hp).2.2.1.1, (h.2.2.2.1 p hp).2.2.1.2.1⟩

theorem termLinks_usedOnce {nw : Str} {terms : Comps} (h : TermsOK nw terms) :
    UsedOnce (termLinks nw (terms.map Prod.fst)) := by
  have hend : ∀ (names : List Str) (k : ℕ), endpoints ((names.zipIdx k).map fun (p : Str × ℕ) =>
      Conn.inner p.1 0 nw (p.2 : ℤ)) = (names.zipIdx k).flatMap fun (p : Str × ℕ) => [(p.1, 0), (nw, (p.2 : ℤ))] := by
    intro names k
    simp [endpoints, List.flatMap_map, Conn.ends]
  constructor
  · unfold termLinks
    rw [hend]
    have h1 := h.1
    have h2 := h.2.1
    generalize terms.map Prod.fst = names at h1 h2
    have key : ∀ (names : List Str) (k : ℕ), names.Nodup → nw ∉ names →
        ((names.zipIdx k).flatMap fun (p : Str × ℕ) => [(p.1, (0 : ℤ)), (nw, (p.2 : ℤ))]).Nodup := by
      intro names
      induction names with
      | nil => intro k _ _; simp
      | cons t names ih =>
        intro k hn hm
        simp only [List.nodup_cons, List.mem_cons, not_or] at hn hm
        have hmem : ∀ e, e ∈ ((names.zipIdx (k + 1)).flatMap fun (p : Str × ℕ) => [(p.1, (0 : ℤ)), (nw, (p.2 : ℤ))]) →
            (e.1 ∈ names ∨ (e.1 = nw ∧ ((k : ℤ) < e.2))) := by
          intro e he
          obtain ⟨p, hp, hpe⟩ := List.mem_flatMap.mp he
          simp only [List.mem_cons, List.not_mem_nil, or_false] at hpe
          obtain ⟨x, i⟩ := p
          rw [List.mk_mem_zipIdx_iff_le_and_getElem?_sub] at hp
          rcases hpe with rfl | rfl
          · exact .inl (List.mem_of_getElem? hp.2)
          · refine .inr ⟨rfl, ?_⟩
            have := hp.1
            simp only
            omega
        rw [List.zipIdx_cons, List.flatMap_cons, List.nodup_append']
        refine ⟨?_, ih (k + 1) hn.2 hm.2, ?_⟩
        · simp only [List.nodup_cons, List.mem_cons, Prod.mk.injEq, List.not_mem_nil, or_false, not_and,
            not_false_eq_true, List.nodup_nil, and_true]
          intro e; exact absurd e.symm hm.1
        · intro e he he'
          simp only [List.mem_cons, List.not_mem_nil, or_false] at he
          rcases he with rfl | rfl
          · rcases hmem _ he' with h | ⟨h, -⟩
            · exact hn.1 h
            · exact hm.1 h.symm
          · rcases hmem _ he' with h | ⟨-, h⟩
            · exact hm.2 h
            · simp at h
    exact key names 0 h1 h2
  · intro e he
    unfold termLinks at he
    rw [hend] at he
    obtain ⟨p, -, hpe⟩ := List.mem_flatMap.mp he
    simp only [List.mem_cons, List.not_mem_nil, or_false] at hpe
    rcases hpe with rfl | rfl
    · exact le_refl _
    · simp

theorem pickKnown_subset (modules : Comps) (names : List Str) : ∀ x ∈ (pickKnown modules names).map Prod.fst, x ∈ names := by
  induction names with
  | nil => intro x hx; cases hx
  | cons y names ih =>
    intro x hx
    unfold pickKnown at hx
    cases hd : dictGet y modules with
    | none => rw [hd] at hx; cases hx
    | some c =>
      rw [hd] at hx
      simp only [List.map_cons, List.mem_cons] at hx
      rcases hx with rfl | hx
      · simp
      · exact List.mem_cons_of_mem _ (ih x hx)

theorem firstMentions_termLinks {nw : Str} {names : List Str} {x : Str}
    (h : x ∈ firstMentions (termLinks nw names)) : x = nw ∨ x ∈ names := by
  rw [firstMentions_eq, mem_dedupFirst, List.mem_flatMap] at h
  obtain ⟨d, hd, hx⟩ := h
  obtain ⟨i, t, ht, rfl⟩ := mem_termLinks.mp hd
  simp only [Conn.names, List.mem_cons, List.not_mem_nil, or_false] at hx
  rcases hx with rfl | rfl
  · exact .inr (List.mem_of_getElem? ht)
  · exact .inl rfl

/-- What `terminate` evaluates to for a dictionary of proper terms. -/
theorem terminate_eval (s : NetState) (c : Comp) (terms : Comps) (name : Option Str) (hb : s.buf = some c)
    (h : Built c) (ho : OrderOK c) (hf : freePorts c ≠ []) (ht : TermsOK (s.name.getD s.cls) terms)
    (hne : terms ≠ []) :
    ∃ newName, terminate s (.dict terms) name =
      match mkNet (some newName) (termComps (s.name.getD s.cls) c terms)
          ((termLinks (s.name.getD s.cls) (terms.map Prod.fst)).map Conn.text) with
      | .error e => .error e
      | .ok d =>
        match s.name with
        | none => .ok ⟨some newName, ['n', 'e', 't', 'w', 'o', 'r', 'k'],
            dictSet ['b', 'a', 's', 'e'] { c with name := none } (termComps s.cls c terms),
            pickKnown (termComps s.cls c terms) (firstMentions (termLinks s.cls (terms.map Prod.fst))),
            (termLinks s.cls (terms.map Prod.fst)).map Conn.text, some d⟩
        | some _ => .error .valueError := by
  set nw := s.name.getD s.cls with hnw
  refine ⟨name.getD (nw ++ ['_', 't', 'e', 'r', 'm', 'i', 'n', 'a', 't', 'e', 'd']), ?_⟩
  unfold terminate
  rw [hb]
  simp only [← hnw]
  rw [if_neg (by rw [numFree_eq (built_reciprocal h) ho]; simpa using hf)]
  simp only [termDict]
  have hcomp : terms.foldl (fun d p => dictSet p.1 p.2 d) [(nw, { c with name := some nw })] =
      termComps nw c terms := by
    rw [foldl_dictSet]
    · rfl
    · simpa [termComps] using termComps_nodup (c := c) ht
  rw [hcomp, termConns_text]
  set newName := name.getD (nw ++ ['_', 't', 'e', 'r', 'm', 'i', 'n', 'a', 't', 'e', 'd'])
  set cs := termLinks nw (terms.map Prod.fst) with hcs
  have hcsne : cs.map Conn.text ≠ [] := by
    simp only [hcs, termLinks]
    cases terms with
    | nil => exact absurd rfl hne
    | cons p l => simp
  have hadd : addAll ⟨some newName, ['n', 'e', 't', 'w', 'o', 'r', 'k'], [], [], [], none⟩ (termComps nw c terms) =
      .ok ⟨some newName, ['n', 'e', 't', 'w', 'o', 'r', 'k'], termComps nw c terms, [], [], none⟩ := by
    rw [addAll_ok]
    · rw [foldl_dictSet]
      · simp
      · simpa using termComps_nodup (c := c) ht
    · rfl
    · intro p hp
      rcases List.mem_cons.mp hp with rfl | hp
      · exact ⟨ht.2.2.1.2.1, ht.2.2.1.2.2, .inr rfl⟩
      · have := ht.2.2.2.1 p hp
        exact ⟨this.1.2.1, this.1.2.2, this.2.2.2⟩
  unfold newNetwork
  rw [hadd]
  simp only [List.nil_append]
  unfold netSetBuffers
  simp only
  rw [if_neg hcsne, if_neg (by simp [termComps])]
  cases hk : mkNet (some newName) (termComps nw c terms) (cs.map Conn.text) with
  | error e => rfl
  | ok d =>
    simp only [hk]
    rw [map_stripConn_text (termLinks_good ht), usedNames_text (termLinks_good ht)]
    unfold addComponent
    have hbase : (['b', 'a', 's', 'e'] : Str) ∉ (pickKnown (termComps nw c terms) (firstMentions cs)).map Prod.fst := by
      intro hm
      rcases firstMentions_termLinks (pickKnown_subset _ _ _ hm) with h | h
      · exact ht.2.2.2.2 h.symm
      · obtain ⟨p, hp, hpe⟩ := List.mem_map.mp h
        exact (ht.2.2.2.1 p hp).2.1 hpe
    simp only
    rw [if_neg hbase]
    cases hn : s.name with
    | none =>
      rw [if_neg (by simp), if_neg (by decide)]
      have : nw = s.cls := by rw [hnw, hn]; rfl
      simp only [hcs, this]
    | some x =>
      have : nw = x := by rw [hnw, hn]; rfl
      rw [if_pos]
      refine ⟨by simp, ?_⟩
      simp only [ne_eq, Option.some.injEq]
      rw [← this]; exact ht.2.2.2.2

theorem termLinks_ports {nw : Str} {c : Comp} {terms : Comps} (h : TermsOK nw terms)
    (hle : terms.length ≤ (freePorts c).length) :
    PortsExist (termComps nw c terms) (termLinks nw (terms.map Prod.fst)) := by
  intro d hd
  obtain ⟨i, t, ht, rfl⟩ := mem_termLinks.mp hd
  have hnd := termComps_nodup (c := c) h
  have hi : i < terms.length := by
    have := (List.getElem?_eq_some_iff.mp ht).1; simpa using this
  obtain ⟨p, hp, rfl⟩ := List.mem_map.mp (List.mem_of_getElem? ht)
  refine ⟨⟨p.2, dictGet_mem_nodup hnd (List.mem_cons_of_mem _ hp), le_refl _, ?_⟩,
    ⟨{ c with name := some nw }, dictGet_mem_nodup hnd (p := (nw, { c with name := some nw })) (List.mem_cons_self),
      by omega, ?_⟩, ?_⟩
  · rw [(h.2.2.2.1 p hp).2.2.1.2.2.2]; simp
  · have : freePorts { c with name := some nw } = freePorts c := rfl
    rw [this]; omega
  · rintro ⟨e, -⟩
    exact h.2.1 (e ▸ List.mem_map_of_mem hp)

theorem termLinks_ne {nw : Str} {terms : Comps} (h : terms ≠ []) : termLinks nw (terms.map Prod.fst) ≠ [] := by
  cases terms with
  | nil => exact absurd rfl h
  | cons p l => simp [termLinks]

/-- Every port of a layout belongs to one of its blocks. -/
theorem block_of_port {l : Comps} (hn : (l.map Prod.fst).Nodup) {g : ℕ} (hg : g < width l) :
    ∃ x c s p, Block l x c s ∧ p < c.n ∧ g = s + p := by
  have key : ∀ (post pre : Comps) (g : ℕ), l = pre ++ post → width pre ≤ g → g < width l →
      ∃ x c s p, Block l x c s ∧ p < c.n ∧ g = s + p := by
    intro post
    induction post with
    | nil => intro pre g hl h1 h2; rw [hl] at h2; simp at h2; omega
    | cons q post ih =>
      intro pre g hl h1 h2
      obtain ⟨x, c⟩ := q
      by_cases hlt : g < width pre + c.n
      · refine ⟨x, c, width pre, g - width pre, ⟨pre, post, hl, ?_, rfl⟩, by omega, by omega⟩
        rw [hl, List.map_append, List.map_cons, List.nodup_append'] at hn
        exact fun hx => hn.2.2 hx (by simp)
      · have hw : width (pre ++ [(x, c)]) = width pre + c.n := by simp [width]
        exact ih (pre ++ [(x, c)]) g (by rw [hl]; simp) (by rw [hw]; omega) h2
  exact key l [] g rfl (by simp [width]) hg

/-- C20. A network without a name, terminated with a dictionary of proper terms, at most as many as it has
free ports: the result connects term `i` with free port `i` (and with nothing else), leaves the other
free ports free, and is fully terminated exactly if there is one term per free port. -/
theorem C20_terminate (s : NetState) (c : Comp) (terms : Comps) (name : Option Str) (hb : s.buf = some c)
    (hname : s.name = none) (h : Built c) (ho : OrderOK c) (ha : AtMostOne c.C)
    (ht : TermsOK s.cls terms) (hne : terms ≠ []) (hle : terms.length ≤ (freePorts c).length) :
    ∃ nw d l, terminate s (.dict terms) name = .ok nw ∧ nw.buf = some d ∧ d.n = width l ∧
      (∀ p ∈ l, p.1 = s.cls ∧ p.2 = { c with name := some s.cls } ∨
        ∃ t, (p.1, t) ∈ terms ∧ p.2 = { t with name := some p.1 }) ∧
      (∀ (i : ℕ) (t : Str), (terms.map Prod.fst)[i]? = some t → ∃ g g', PortOf l t 0 g ∧ PortOf l s.cls i g' ∧
        ∀ k, d.C g k ≠ 0 ↔ k = g') ∧
      (∀ i : ℕ, terms.length ≤ i → i < (freePorts c).length → ∃ g, PortOf l s.cls i g ∧ Unconnected d g) ∧
      (d.terminated = true ↔ terms.length = (freePorts c).length) := by
  have hf : freePorts c ≠ [] := by
    intro hf
    rw [hf] at hle
    exact hne (List.length_eq_zero_iff.mp (by simpa using hle))
  obtain ⟨newName, hev⟩ := terminate_eval s c terms name hb h ho hf (by rw [hname]; exact ht) hne
  simp only [hname, Option.getD_none] at hev
  set nw := s.cls with hnw
  set comps := termComps nw c terms with hcomps
  set cs := termLinks nw (terms.map Prod.fst) with hcs
  have hg := termLinks_good ht
  have hm := termComps_ok ht h ho
  have hcont : Contiguous cs := by unfold Contiguous; rw [hcs, termLinks_outs]; simp
  obtain ⟨d, hd⟩ := mkNet_accepts (some newName) comps cs hm hg (termLinks_ne hne) (termLinks_ports ht hle) hcont
  rw [hd] at hev
  simp only at hev
  have hones : ∀ p ∈ comps, AtMostOne p.2.C := by
    intro p hp
    rcases List.mem_cons.mp hp with rfl | hp
    · exact ha
    · intro i j j' hj hj'
      have hrec := built_reciprocal (hm p (List.mem_cons_of_mem _ hp)).1
      have h1 := (hrec.2.2 i j hj).2
      have h2 := (hrec.2.2 i j' hj').2
      have := (ht.2.2.2.1 p hp).2.2.1.2.2.1
      omega
  have hpair := C24_pairing_partial (some newName) comps cs d
    (fun p hp => ⟨(hm p hp).1, (hm p hp).2, hones p hp⟩) hg (termLinks_usedOnce ht) hd
  obtain ⟨l, hl, hn, hC, hfree⟩ := C15_exact (some newName) comps cs d (fun p hp => (hm p hp).1) hg hd
  have hnd : ∀ p ∈ l, p.2.portOrder.Nodup := layout_children hl (P := fun d => d.portOrder.Nodup)
    (fun _ _ h => h) fun p hp => (hm p hp).2.nodup_iff.mpr List.nodup_range
  have hrec : Reciprocal d.n d.C := built_reciprocal (.net _ _ _ _ (fun p hp => (hm p hp).1) hd)
  have hnames : (comps.map Prod.fst).Nodup := termComps_nodup ht
  -- blocks
  have hfirst : nw ∈ firstMentions cs ∧ ∀ t ∈ terms.map Prod.fst, t ∈ firstMentions cs := by
    have hin : ∀ x, (∃ d ∈ cs, x ∈ d.names) → x ∈ firstMentions cs := by
      rintro x ⟨d, hd, hx⟩
      rw [firstMentions_eq, mem_dedupFirst, List.mem_flatMap]; exact ⟨d, hd, hx⟩
    constructor
    · cases hterms : terms with
      | nil => exact absurd hterms hne
      | cons p rest =>
        exact hin nw ⟨.inner p.1 0 nw ((0 : ℕ) : ℤ), mem_termLinks.mpr ⟨0, p.1, by simp [hterms], rfl⟩, by simp [Conn.names]⟩
    · intro t ht'
      obtain ⟨i, hi⟩ := List.mem_iff_getElem?.mp ht'
      exact hin t ⟨_, mem_termLinks.mpr ⟨i, t, hi, rfl⟩, by simp [Conn.names]⟩
  obtain ⟨s0, hs0⟩ := layout_locate hl hfirst.1 (dictGet_mem_nodup hnames (p := (nw, { c with name := some nw })) List.mem_cons_self)
  have hblk : Block l nw { c with name := some nw } s0 := locate_iff.mp hs0
  have hport : ∀ i : ℕ, i < (freePorts c).length → ∃ p, (freePorts c)[i]? = some p ∧ PortOf l nw i (s0 + p) := by
    intro i hi
    exact ⟨(freePorts c)[i], List.getElem?_eq_getElem hi, _, s0, (freePorts c)[i], hblk,
      .inl ⟨i, rfl, List.getElem?_eq_getElem hi⟩, rfl⟩
  have htblk : ∀ p ∈ terms, ∃ st, Block l p.1 { p.2 with name := some p.1 } st ∧ PortOf l p.1 0 (st + 0) := by
    intro p hp
    obtain ⟨st, hst⟩ := layout_locate hl (hfirst.2 p.1 (List.mem_map_of_mem hp))
      (dictGet_mem_nodup hnames (List.mem_cons_of_mem _ hp))
    have hb := locate_iff.mp hst
    have hfp : freePorts { p.2 with name := some p.1 } = [0] := (ht.2.2.2.1 p hp).2.2.1.2.2.2
    exact ⟨st, hb, _, st, 0, hb, .inl ⟨0, rfl, by rw [hfp]; rfl⟩, rfl⟩
  have hleft : ∀ i : ℕ, terms.length ≤ i → i < (freePorts c).length → ∃ g, PortOf l nw i g ∧ Unconnected d g := by
    intro i hi1 hi2
    obtain ⟨q, hq, hpn⟩ := hport i hi2
    refine ⟨s0 + q, hpn, ?_⟩
    have hz : ∀ k, d.C (s0 + q) k = 0 := by
      intro k
      by_contra hne'
      rcases (hC _ _).mp hne' with ⟨x, e, s', i', j', hbl, hi', hj', he, -, hne''⟩ | ⟨a, m, b, m', hmem, hp⟩
      · have hq' := List.mem_of_getElem? hq
        unfold freePorts at hq'
        simp only [List.mem_filter, decide_eq_true_eq] at hq'
        obtain ⟨-, rfl, -, rfl⟩ := block_disjoint hblk hbl (i := q) hq'.2.1 hi' he
        exact hne'' (hq'.2.2 _ hj').1
      · obtain ⟨i', t, hit, heq⟩ := mem_termLinks.mp hmem
        simp only [Conn.inner.injEq] at heq
        obtain ⟨rfl, rfl, rfl, rfl⟩ := heq
        have hlt : i' < terms.length := by
          have := (List.getElem?_eq_some_iff.mp hit).1; simpa using this
        rcases hp with ⟨h1, -⟩ | ⟨-, h1⟩
        · obtain ⟨e1, -⟩ := portOf_inj hnd (by omega) (by omega) hpn h1
          exact ht.2.1 (e1 ▸ List.mem_of_getElem? hit)
        · obtain ⟨-, e2⟩ := portOf_inj hnd (by omega) (by omega) hpn h1
          omega
    exact fun k _ => ⟨hz k, (hrec.1 k _).trans (hz k)⟩
  refine ⟨_, d, l, hev, rfl, hn, ?_, ?_, ?_, ?_⟩
  · intro p hp
    obtain ⟨e, he, he'⟩ := hl.2 p hp
    have hmem := dictGet_mem he
    rcases List.mem_cons.mp hmem with heq | hmem
    · simp only [Prod.mk.injEq] at heq
      left
      refine ⟨heq.1, ?_⟩
      rw [he', heq.2, heq.1]
    · exact .inr ⟨e, hmem, he'⟩
  · intro i t hit
    obtain ⟨p, hp, rfl⟩ := List.mem_map.mp (List.mem_of_getElem? hit)
    have hi : i < (freePorts c).length := by
      have := (List.getElem?_eq_some_iff.mp hit).1
      simp only [List.length_map] at this; omega
    obtain ⟨st, -, hpt⟩ := htblk p hp
    obtain ⟨q, -, hpn⟩ := hport i hi
    have hne' : d.C (st + 0) (s0 + q) ≠ 0 := (hC _ _).mpr (.inr ⟨p.1, 0, nw, i,
      mem_termLinks.mpr ⟨i, p.1, hit, rfl⟩, .inl ⟨hpt, hpn⟩⟩)
    exact ⟨st + 0, s0 + q, hpt, hpn, fun k => ⟨fun hk => hpair.1 _ _ _ hk hne', fun hk => hk ▸ hne'⟩⟩
  · exact hleft
  · constructor
    · intro hterm
      by_contra hlen
      obtain ⟨g, hpg, hu⟩ := hleft terms.length (le_refl _) (by omega)
      have hgn : g < d.n := hn ▸ hpg.lt
      have := (freeAt_iff hrec.2.1 g).mpr ⟨hgn, hu⟩
      unfold Comp.terminated at hterm
      rw [Bool.not_eq_true', List.any_eq_false] at hterm
      exact hterm g (List.mem_range.mpr hgn) this
    · intro hlen
      unfold Comp.terminated
      rw [Bool.not_eq_true', List.any_eq_false]
      intro g hgm hfr
      obtain ⟨hgn, hnot⟩ := (hfree g).mp hfr
      rw [hn] at hgn
      obtain ⟨x, e, st, p, hbl, hp, rfl⟩ := block_of_port (layout_nodup hl) hgn
      obtain ⟨e0, he0, he0'⟩ := hl.2 _ hbl.mem
      simp only at he0 he0'
      rcases List.mem_cons.mp (dictGet_mem he0) with heq | hmem
      · simp only [Prod.mk.injEq] at heq
        obtain ⟨rfl, rfl⟩ := heq
        obtain ⟨rfl, rfl⟩ := block_det hblk hbl
        by_cases hu : Unconnected c p
        · have hpf : p ∈ freePorts c := by
            unfold freePorts
            rw [List.mem_filter]
            exact ⟨ho.mem_iff.mpr (List.mem_range.mpr hp), by simpa using ⟨hp, hu⟩⟩
          obtain ⟨i, hi⟩ := List.mem_iff_getElem?.mp hpf
          have hil := (List.getElem?_eq_some_iff.mp hi).1
          obtain ⟨q, hq, hpn⟩ := hport i hil
          rw [hi] at hq
          simp only [Option.some.injEq] at hq
          subst hq
          have hit : i < (terms.map Prod.fst).length := by simp; omega
          obtain ⟨pt, hpt, hpe⟩ := List.mem_map.mp (List.getElem_mem hit)
          obtain ⟨st', -, hpt'⟩ := htblk pt hpt
          exact (hnot (st' + 0)).2 ⟨pt.1, 0, _, i, mem_termLinks.mpr ⟨i, pt.1, by
            rw [hpe]; exact List.getElem?_eq_getElem hit, rfl⟩, .inr ⟨hpt', hpn⟩⟩
        · unfold Unconnected at hu
          push Not at hu
          obtain ⟨k, hk, hk'⟩ := hu
          have hrc := built_reciprocal h
          have : c.C p k ≠ 0 := fun h0 => hk' h0 ((hrc.1 k p).trans h0)
          exact (hnot (s0 + k)).1 ⟨_, _, s0, p, k, hblk, hp, hk, rfl, rfl, this⟩
      · obtain ⟨st', hb', hpt'⟩ := htblk (x, e0) hmem
        subst he0'
        obtain ⟨rfl, -⟩ := block_det hb' hbl
        have hp0 : p = 0 := by
          have := (ht.2.2.2.1 _ hmem).2.2.1.2.2.1
          simp only at this hp
          omega
        subst hp0
        obtain ⟨i, hi⟩ := List.mem_iff_getElem?.mp (List.mem_map_of_mem (f := Prod.fst) hmem)
        have hil : i < (freePorts c).length := by
          have := (List.getElem?_eq_some_iff.mp hi).1
          simp only [List.length_map] at this; omega
        obtain ⟨q, -, hpn⟩ := hport i hil
        exact (hnot (s0 + q)).2 ⟨x, 0, nw, i, mem_termLinks.mpr ⟨i, x, hi, rfl⟩, .inl ⟨hpt', hpn⟩⟩

theorem mapE_first_error {α β : Type} {f : α → Except PyErr β} {l : List α} {e : PyErr}
    (h : ∀ a ∈ l, (∃ b, f a = .ok b) ∨ f a = .error e) (h' : ∃ a ∈ l, f a = .error e) :
    mapE f l = .error e := by
  obtain ⟨a, ha, hae⟩ := h'
  obtain ⟨e', he'⟩ := mapE_of_error ha hae
  obtain ⟨b, hb, hbe⟩ := mapE_error he'
  rcases h b hb with ⟨v, hv⟩ | hv
  · rw [hv] at hbe; cases hbe
  · rw [hv] at hbe
    simp only [Except.error.injEq] at hbe
    rw [he', ← hbe]

/-- C20. Too many terms are rejected with `ValueError`. -/
theorem C20_too_many_terms (s : NetState) (c : Comp) (terms : Comps) (name : Option Str) (hb : s.buf = some c)
    (h : Built c) (ho : OrderOK c) (hf : freePorts c ≠ []) (ht : TermsOK (s.name.getD s.cls) terms)
    (hgt : (freePorts c).length < terms.length) : terminate s (.dict terms) name = .error .valueError := by
  have hne : terms ≠ [] := by rintro rfl; simp at hgt
  obtain ⟨newName, hev⟩ := terminate_eval s c terms name hb h ho hf ht hne
  rw [hev]
  set nw := s.name.getD s.cls
  set comps := termComps nw c terms with hcomps
  set cs := termLinks nw (terms.map Prod.fst) with hcs
  have hg := termLinks_good ht
  have hm := termComps_ok ht h ho
  have hnames : (comps.map Prod.fst).Nodup := termComps_nodup ht
  have hcont : Contiguous cs := by unfold Contiguous; rw [hcs, termLinks_outs]; simp
  obtain ⟨l, hpick⟩ := layout_exists (modules := comps) (names := firstMentions cs) (by
    intro x hx
    rcases firstMentions_termLinks hx with rfl | hx
    · simp [hcomps, termComps]
    · simp only [hcomps, termComps, List.map_cons]; exact List.mem_cons_of_mem _ hx)
  have hpick' : pickComps comps (usedNames ((cs.map Conn.text).map stripConn)) = .ok l := by
    rw [map_stripConn_text hg, usedNames_text hg]; exact hpick
  have hl : Layout comps cs l := layout_of_pick hg hpick'
  have hch : ChildrenOK l := layout_children hl (P := fun d => Reciprocal d.n d.C) (fun _ _ h => h)
    fun p hp => built_reciprocal (hm p hp).1
  have hord : ∀ p ∈ l, OrderOK p.2 := layout_children hl (fun _ _ h => h) fun p hp => (hm p hp).2
  obtain ⟨es0, hes⟩ : ∃ es0, mapE (parseExternal l) (cs.map Conn.text) = .ok es0 := by
    apply mapE_exists
    intro x hx
    obtain ⟨d, hd, rfl⟩ := List.mem_map.mp hx
    obtain ⟨i, t, hit, rfl⟩ := mem_termLinks.mp hd
    exact ⟨none, parseExternal_inner l 0 i (hg _ hd t (by simp [Conn.names])) (hg _ hd nw (by simp [Conn.names]))⟩
  obtain ⟨es, -, -, -, -, -, hpo⟩ := setPortOrder_eval hg hch
    (fun p hp => by simpa using (hord p hp).length_eq)
    (fun p hp => (hord p hp).nodup_iff.mpr List.nodup_range) hcont hes
  have hbad : mapE (parseInternal l) (cs.map Conn.text) = .error .valueError := by
    have hmen : ∀ d ∈ cs, ∀ x ∈ d.names, x ∈ firstMentions cs := by
      intro d hd x hx
      rw [firstMentions_eq, mem_dedupFirst, List.mem_flatMap]; exact ⟨d, hd, hx⟩
    have hterm : ∀ (i : ℕ) (t : Str), (terms.map Prod.fst)[i]? = some t → HasPort comps t 0 ∧ t ≠ nw := by
      intro i t hit
      obtain ⟨p, hp, rfl⟩ := List.mem_map.mp (List.mem_of_getElem? hit)
      refine ⟨⟨p.2, dictGet_mem_nodup hnames (List.mem_cons_of_mem _ hp), le_refl _, ?_⟩, ?_⟩
      · rw [(ht.2.2.2.1 p hp).2.2.1.2.2.2]; simp
      · intro e; exact ht.2.1 (e ▸ List.mem_map_of_mem hp)
    have heval : ∀ (i : ℕ) (t : Str), (terms.map Prod.fst)[i]? = some t →
        parseInternal l (Conn.inner t 0 nw i).text =
          ((portTooHigh l nw i).bind fun _ => (globalPort l t 0).bind fun x =>
            (globalPort l nw i).bind fun y => .ok (x, y)).map some := by
      intro i t hit
      have hmem : Conn.inner t 0 nw i ∈ cs := mem_termLinks.mpr ⟨i, t, hit, rfl⟩
      rw [parseInternal_inner l 0 i (hg _ hmem t (by simp [Conn.names])) (hg _ hmem nw (by simp [Conn.names]))]
      obtain ⟨hp, hne'⟩ := hterm i t hit
      have := hasPort_global (fun p hp => (hm p hp).1) hl (hmen _ hmem t (by simp [Conn.names])) hp
      unfold internalPorts
      rw [if_neg (by rintro ⟨e, -⟩; exact hne' e), this.1]
      rfl
    have hnwget : dictGet nw comps = some { c with name := some nw } :=
      dictGet_mem_nodup hnames (p := (nw, { c with name := some nw })) List.mem_cons_self
    have hhigh : ∀ (i : ℕ) (t : Str), (terms.map Prod.fst)[i]? = some t → (freePorts c).length ≤ i →
        parseInternal l (Conn.inner t 0 nw i).text = .error .valueError := by
      intro i t hit hi
      have hmem : Conn.inner t 0 nw i ∈ cs := mem_termLinks.mpr ⟨i, t, hit, rfl⟩
      obtain ⟨st, hst⟩ := layout_locate hl (hmen _ hmem nw (by simp [Conn.names])) hnwget
      have hfree : ({ ({ c with name := some nw } : Comp) with name := some nw } : Comp).free = freePorts c :=
        free_eq (c := { ({ c with name := some nw } : Comp) with name := some nw }) (built_reciprocal h).2.1
      have : portTooHigh l nw i = .error .valueError := by
        unfold portTooHigh
        rw [hst]
        simp only [hfree]
        rw [if_pos (by omega)]
      rw [heval i t hit, this]; rfl
    apply mapE_first_error
    · intro x hx
      obtain ⟨d, hd, rfl⟩ := List.mem_map.mp hx
      obtain ⟨i, t, hit, rfl⟩ := mem_termLinks.mp hd
      by_cases hi : i < (freePorts c).length
      · left
        obtain ⟨hp, -⟩ := hterm i t hit
        obtain ⟨-, x, hx⟩ := hasPort_global (fun p hp => (hm p hp).1) hl (hmen _ hd t (by simp [Conn.names])) hp
        obtain ⟨h1, y, hy⟩ := hasPort_global (fun p hp => (hm p hp).1) hl (hmen _ hd nw (by simp [Conn.names]))
          (i := (i : ℤ)) ⟨_, hnwget, by omega, by
            have : freePorts { c with name := some nw } = freePorts c := rfl
            rw [this]; omega⟩
        exact ⟨some (x, y), by rw [heval i t hit, h1, hx, hy]; rfl⟩
      · exact .inr (hhigh i t hit (by omega))
    · have hit : (freePorts c).length < (terms.map Prod.fst).length := by simpa using hgt
      exact ⟨_, List.mem_map_of_mem (mem_termLinks.mpr ⟨_, _, List.getElem?_eq_getElem hit, rfl⟩),
        hhigh _ _ (List.getElem?_eq_getElem hit) (le_refl _)⟩
  have hk : mkNet (some newName) comps (cs.map Conn.text) = .error .valueError := by
    unfold mkNet
    rw [hpick', map_stripConn_text hg]
    simp only [Except.bind]
    unfold netBuffers setC
    rw [hpo, hbad]; rfl
  rw [hk]

/-- A single term (or none at all) stands for one fresh term per free port, called `cls_0`, `cls_1`, …. -/
theorem C20_single (s : NetState) (c : Comp) (cls : Str) (t : Comp) (name : Option Str) (hb : s.buf = some c)
    (h : Built c) (ho : OrderOK c) :
    terminate s (.single cls t) name = terminate s (.dict ((List.range (freePorts c).length).map fun (i : ℕ) =>
      (cls ++ '_' :: natStr i, { t with name := some (cls ++ '_' :: natStr i) }))) name := by
  unfold terminate
  rw [hb]
  simp only [termDict, numFree_eq (built_reciprocal h) ho]

/-- A list of terms stands for the dictionary of the terms by their names. -/
theorem C20_list (s : NetState) (terms : Comps) (name : Option Str) (hn : (terms.map Prod.fst).Nodup)
    (h : ∀ p ∈ terms, p.2.name = some p.1) :
    terminate s (.list (terms.map Prod.snd)) name = terminate s (.dict terms) name := by
  have : mapE namedTerm (terms.map Prod.snd) = .ok terms := by
    have := mapE_map_ok (f := namedTerm) (g := Prod.snd) (h := id) terms (by
        intro p hp; simp only [namedTerm, h p hp]; rfl)
    simpa using this
  have hfold : terms.foldl (fun d p => dictSet p.1 p.2 d) [] = terms := by
    rw [foldl_dictSet _ _ (by simpa using hn)]; rfl
  unfold terminate
  cases s.buf with
  | none => rfl
  | some c =>
    simp only [termDict, this, Except.map, hfold]

/-! ### Examples -/

theorem leaf_onePort : OnePort term ∧ OnePort source ∧ OnePort detector := by
  refine ⟨⟨?_, List.Perm.refl _, rfl, by decide +kernel⟩, ⟨?_, List.Perm.refl _, rfl, by decide +kernel⟩,
    ⟨?_, List.Perm.refl _, rfl, by decide +kernel⟩⟩
  · exact .leaf 1 _ _ _ rfl rfl rfl (by decide +kernel)
  · exact .leaf 1 _ _ _ rfl rfl rfl (by decide +kernel)
  · exact .leaf 1 _ _ _ rfl rfl rfl (by decide +kernel)

/-- A source and a detector for a network of class `network`. -/
example : TermsOK "network".toList [("src".toList, source), ("det".toList, detector)] := by
  refine ⟨by decide, by decide, ⟨goodName_dec (by decide), by decide, by decide⟩, ?_, by decide⟩
  intro p hp
  simp only [List.mem_cons, List.not_mem_nil, or_false] at hp
  rcases hp with rfl | rfl
  · exact ⟨⟨goodName_dec (by decide), by decide, by decide⟩, by decide, leaf_onePort.2.1, .inl rfl⟩
  · exact ⟨⟨goodName_dec (by decide), by decide, by decide⟩, by decide, leaf_onePort.2.2, .inl rfl⟩

/-- The ring, terminated. -/
example : okAnd (mkNet none ringModules (ringConns.map Conn.text)) (fun c =>
    okAnd (terminate ⟨none, "network".toList, ringModules, [], [], some c⟩ (.dict [("src".toList, source),
      ("det".toList, detector)]) none) fun nw => nw.buf.any fun d => d.terminated && decide (d.n = 8)) = true := by
  decide +kernel

/-! ## C21 `unterminate` -/

/-- The full statement: terminating and unterminating gives the network back, for every network with
free ports and one proper term per free port. -/
def C21_statement : Prop := ∀ (s : NetState) (c : Comp) (terms : Comps) (name : Option Str),
  s.buf = some c → Built c → OrderOK c → freePorts c ≠ [] → TermsOK (s.name.getD s.cls) terms →
  terms.length = (freePorts c).length →
  ∃ nw, terminate s (.dict terms) name = .ok nw ∧ unterminate nw = .ok { c with name := s.name }

/-- C21. No network with a name (other than `"base"`) can be terminated, with whatever terms. -/
theorem C21_named_never (s : NetState) (x : Str) (hx : s.name = some x) (hb : x ≠ ['b', 'a', 's', 'e'])
    (arg : TermArg) (name : Option Str) : ∃ e, terminate s arg name = .error e := by
  unfold terminate
  cases s.buf with
  | none => exact ⟨_, rfl⟩
  | some c =>
    simp only
    split
    · exact ⟨_, rfl⟩
    cases termDict c.numFree arg with
    | error e => exact ⟨_, rfl⟩
    | ok terms =>
      simp only
      generalize newNetwork _ _ _ _ = r
      cases r with
      | error e => exact ⟨_, rfl⟩
      | ok nw =>
        simp only
        unfold addComponent
        by_cases h1 : (['b', 'a', 's', 'e'] : Str) ∈ nw.comps.map Prod.fst
        · rw [if_pos h1]; exact ⟨_, rfl⟩
        · rw [if_neg h1, if_pos]
          · exact ⟨_, rfl⟩
          · simp [hx, hb]

theorem C21_violation : ¬ C21_statement := by
  intro H
  have hgood : AttrName "abc".toList := ⟨goodName_dec (by decide), by decide, by decide⟩
  obtain ⟨nw, hnw, -⟩ := H ⟨some "abc".toList, "network".toList, [], [], [], some (passive 2)⟩ (passive 2)
    [("src".toList, source), ("det".toList, detector)] none rfl (passive_built 2 (by decide)) (passive_order 2)
    (by decide +kernel) (by
      refine ⟨by decide, by decide, hgood, ?_, by decide⟩
      intro p hp
      simp only [List.mem_cons, List.not_mem_nil, or_false] at hp
      rcases hp with rfl | rfl
      · exact ⟨⟨goodName_dec (by decide), by decide, by decide⟩, by decide, leaf_onePort.2.1, .inl rfl⟩
      · exact ⟨⟨goodName_dec (by decide), by decide, by decide⟩, by decide, leaf_onePort.2.2, .inl rfl⟩)
    (by decide +kernel)
  obtain ⟨e, he⟩ := C21_named_never ⟨some "abc".toList, "network".toList, [], [], [], some (passive 2)⟩ "abc".toList rfl
    (by decide) (.dict [("src".toList, source), ("det".toList, detector)]) none
  rw [he] at hnw
  cases hnw

/-- C21, what holds: for networks without a name. (Missing: named networks, for which it is false.) -/
theorem C21_unterminate_partial (s : NetState) (c : Comp) (terms : Comps) (name : Option Str) (hb : s.buf = some c)
    (hname : s.name = none) (h : Built c) (ho : OrderOK c) (hf : freePorts c ≠ [])
    (ht : TermsOK s.cls terms) (hlen : terms.length = (freePorts c).length) :
    ∃ nw, terminate s (.dict terms) name = .ok nw ∧ unterminate nw = .ok { c with name := none } := by
  have hne : terms ≠ [] := by
    rintro rfl
    exact hf (List.length_eq_zero_iff.mp hlen.symm)
  obtain ⟨newName, hev⟩ := terminate_eval s c terms name hb h ho hf (by rw [hname]; exact ht) hne
  simp only [hname, Option.getD_none] at hev
  have hcont : Contiguous (termLinks s.cls (terms.map Prod.fst)) := by
    unfold Contiguous; rw [termLinks_outs]; simp
  obtain ⟨d, hd⟩ := mkNet_accepts (some newName) _ _ (termComps_ok ht h ho) (termLinks_good ht) (termLinks_ne hne)
    (termLinks_ports ht hlen.le) hcont
  rw [hd] at hev
  refine ⟨_, hev, ?_⟩
  unfold unterminate
  simp only
  rw [dictGet_set, if_pos rfl]

/-- C21. A network that was not made by `terminate` has nothing to give back: `unterminate` raises AttributeError if and only if
there is no module called `base`. -/
theorem C21_not_terminated (s : NetState) :
    unterminate s = .error .attributeError ↔ "base".toList ∉ s.modules.map Prod.fst := by
  unfold unterminate
  rw [← dictGet_none]
  have e : "base".toList = ['b', 'a', 's', 'e'] := by decide
  rw [e]
  cases dictGet ['b', 'a', 's', 'e'] s.modules with
  | none => simp
  | some c => simp

example : unterminate ⟨none, "network".toList, ringModules, [], [], none⟩ = .error .attributeError :=
  (C21_not_terminated _).mpr (by decide)

/-! ## Examples of use -/

theorem terms_ok : TermsOK "network".toList [("src".toList, source), ("det".toList, detector)] := by
  refine ⟨by decide, by decide, ⟨goodName_dec (by decide), by decide, by decide⟩, ?_, by decide⟩
  intro p hp
  simp only [List.mem_cons, List.not_mem_nil, or_false] at hp
  rcases hp with rfl | rfl
  · exact ⟨⟨goodName_dec (by decide), by decide, by decide⟩, by decide, leaf_onePort.2.1, .inl rfl⟩
  · exact ⟨⟨goodName_dec (by decide), by decide, by decide⟩, by decide, leaf_onePort.2.2, .inl rfl⟩

/-- The ring between a source and a detector: completely terminated, and `unterminate` gives the ring back. -/
example : ∃ c nw d, mkNet none ringModules (ringConns.map Conn.text) = .ok c ∧
    terminate ⟨none, "network".toList, ringModules, [], [], some c⟩ (.dict [("src".toList, source), ("det".toList, detector)]) none =
      .ok nw ∧ nw.buf = some d ∧ d.terminated = true ∧ unterminate nw = .ok { c with name := none } := by
  obtain ⟨c, hc, -, -, hf⟩ := ring_net
  have hb : Built c := .net none _ _ c ring_built hc
  have ho := C19_permutation_partial none _ _ c (fun p hp => ⟨(ring_clean p hp).1, (ring_clean p hp).2.1⟩) ring_good ring_contiguous hc
  have ha := (C24_pairing_partial none _ _ c ring_clean ring_good (by unfold UsedOnce; decide) hc).1
  obtain ⟨nw, d, l, h1, h2, -, -, -, -, h3⟩ := C20_terminate ⟨none, "network".toList, ringModules, [], [], some c⟩ c _ none rfl rfl
    hb ho ha terms_ok (by simp) (by rw [hf]; simp)
  obtain ⟨nw', h4, h5⟩ := C21_unterminate_partial ⟨none, "network".toList, ringModules, [], [], some c⟩ c _ none rfl rfl
    hb ho (by rw [hf]; simp) terms_ok (by rw [hf]; simp)
  obtain rfl := Except.ok.inj (h1.symm.trans h4)
  exact ⟨c, nw, d, hc, h1, h2, h3.mpr (by rw [hf]; simp), h5⟩

/-- One detector for both ports, and a list of named terms, are short for dictionaries. A third term is refused, and so is any
when no port is free. -/
example : ∃ c, mkNet none ringModules (ringConns.map Conn.text) = .ok c ∧
    terminate ⟨none, "network".toList, ringModules, [], [], some c⟩ (.single "detector".toList detector) none =
      terminate ⟨none, "network".toList, ringModules, [], [], some c⟩ (.dict ((List.range (freePorts c).length).map fun (i : ℕ) =>
        ("detector".toList ++ '_' :: natStr i, { detector with name := some ("detector".toList ++ '_' :: natStr i) }))) none := by
  obtain ⟨c, hc, -, -, hf⟩ := ring_net
  exact ⟨c, hc, C20_single ⟨none, "network".toList, ringModules, [], [], some c⟩ c _ detector none rfl (.net none _ _ c ring_built hc)
    (C19_permutation_partial none _ _ c (fun p hp => ⟨(ring_clean p hp).1, (ring_clean p hp).2.1⟩) ring_good ring_contiguous hc)⟩

example (s : NetState) : terminate s (.list [{ source with name := some "src".toList }, { detector with name := some "det".toList }]) none =
    terminate s (.dict [("src".toList, { source with name := some "src".toList }), ("det".toList, { detector with name := some "det".toList })]) none :=
  C20_list s [("src".toList, { source with name := some "src".toList }), ("det".toList, { detector with name := some "det".toList })] none
    (by decide) (by simp)

example : ∃ (c : Comp), terminate ⟨none, "network".toList, [], [], [], some (passive 1)⟩
    (.dict [("src".toList, source), ("det".toList, detector)]) none = .error .valueError ∧ c = passive 1 :=
  ⟨_, C20_too_many_terms ⟨none, "network".toList, [], [], [], some (passive 1)⟩ (passive 1) _ none rfl (passive_built 1 (by decide))
    (passive_order 1) (by decide +kernel) terms_ok (by decide +kernel), rfl⟩

example (arg : TermArg) : ∃ e, terminate ⟨some ['r'], "network".toList, ringModules, [], [], none⟩ arg none = .error e :=
  C21_named_never _ ['r'] rfl (by decide) _ _

example : ∃ c, mkNet none [(['w'], passive 2)] ([Conn.inner ['w'] 0 ['w'] 1].map Conn.text) = .ok c ∧
    ∀ arg, terminate ⟨none, "network".toList, [], [], [], some c⟩ arg none = .error .indexError := by
  have hm : ∀ p ∈ [((['w'] : Str), passive 2)], Built p.2 ∧ OrderOK p.2 := by
    intro p hp
    obtain rfl := List.mem_singleton.mp hp
    exact ⟨passive_built 2 (by decide), passive_order 2⟩
  have h : okAnd (mkNet none [(['w'], passive 2)] ([Conn.inner ['w'] 0 ['w'] 1].map Conn.text))
      (fun c => decide (freePorts c = [])) = true := by decide +kernel
  obtain ⟨c, hc, hf⟩ := okAnd_iff.mp h
  exact ⟨c, hc, fun arg => C20_no_free_ports _ c arg none rfl (.net none _ _ c (fun p hp => (hm p hp).1) hc)
    (C19_permutation_partial none _ _ c hm (goodConns_dec (by decide)) (by unfold Contiguous; decide) hc) (of_decide_eq_true hf)⟩

end PT
