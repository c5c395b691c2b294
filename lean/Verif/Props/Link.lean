import Verif.Proof.Accept
import Verif.Spec.Link
import Mathlib.Data.List.DropRight
import Mathlib.Data.List.TakeWhile

/-!
# C61, C13, C23: acceptance, `link`
-/

namespace PT
open Spec

/-! ## C61 Well-formed networks are accepted -/

/-- C61. A network whose connections join existing, different ports of its components, with external
ports numbered 0, …, k-1, is accepted. -/
theorem C61_accepted (name : Option Str) (modules : Comps) (cs : List Conn)
    (hm : ∀ p ∈ modules, Built p.2 ∧ OrderOK p.2) (hg : GoodConns cs) (hne : cs ≠ [])
    (hp : PortsExist modules cs) (hc : Contiguous cs) :
    ∃ c, mkNet name modules (cs.map Conn.text) = .ok c ∧ OrderOK c := by
  obtain ⟨c, h⟩ := mkNet_accepts name modules cs hm hg hne hp hc
  exact ⟨c, h, C19_permutation_partial name modules cs c hm hg hc h⟩

example : PortsExist ringModules ringConns ∧ ringConns ≠ [] := by
  refine ⟨?_, by decide⟩
  have hd : dictGet ['d'] ringModules = some (passive 4) := by simp [ringModules, dictGet]
  have hw : dictGet ['w'] ringModules = some (passive 2) := by simp [ringModules, dictGet]
  have h4 : (freePorts (passive 4)).length = 4 := by decide +kernel
  have h2 : (freePorts (passive 2)).length = 2 := by decide +kernel
  intro c hc
  simp only [ringConns, List.mem_cons, List.not_mem_nil, or_false] at hc
  rcases hc with rfl | rfl | rfl | rfl
  · exact ⟨⟨_, hd, by decide, by rw [h4]; decide⟩, ⟨_, hw, by decide, by rw [h2]; decide⟩, by decide⟩
  · exact ⟨⟨_, hw, by decide, by rw [h2]; decide⟩, ⟨_, hd, by decide, by rw [h4]; decide⟩, by decide⟩
  · exact ⟨_, hd, by decide, by rw [h4]; decide⟩
  · exact ⟨_, hd, by decide, by rw [h4]; decide⟩

/-! ## C13 `link` -/

theorem parseDigits_colon : ∀ (s : Str) (acc : ℕ) (p : Bool), ':' ∈ s → parseDigits acc p s = none := by
  intro s
  induction s with
  | nil => intro _ _ h; cases h
  | cons c s ih =>
    intro acc p h
    unfold parseDigits
    rcases List.mem_cons.mp h with rfl | h
    · have : digitVal ':' = none := by decide
      simp [this]
    · cases digitVal c with
      | some d => exact ih _ _ h
      | none =>
        simp only
        split
        · exact ih _ _ h
        · rfl

theorem mem_dropWhile {p : Char → Bool} {c : Char} (hc : p c = false) : ∀ {s : Str}, c ∈ s → c ∈ s.dropWhile p := by
  intro s
  induction s with
  | nil => intro h; cases h
  | cons d s ih =>
    intro h
    rw [List.dropWhile_cons]
    split
    · rename_i hd
      rcases List.mem_cons.mp h with rfl | h
      · rw [hc] at hd; cases hd
      · exact ih h
    · exact h

theorem pyInt_colon {s : Str} (h : ':' ∈ s) : pyInt s = none := by
  have hs : ':' ∈ strip s := by
    unfold strip
    rw [List.mem_reverse]
    apply mem_dropWhile (by decide)
    rw [List.mem_reverse]
    exact mem_dropWhile (by decide) h
  unfold pyInt
  split
  · rename_i t ht
    rw [ht] at hs
    rw [parseDigits_colon t _ _ (by simpa using hs)]; rfl
  · rename_i t ht
    rw [ht] at hs
    rw [parseDigits_colon t _ _ (by simpa using hs)]; rfl
  · rw [parseDigits_colon _ _ _ hs]; rfl

/-- The parts of an element, as split. -/
def elemParts (e : Elem) : List (Option Str) :=
  (match e.a with
    | some a => [some (intStr a)]
    | none => []) ++ [some e.name] ++
  match e.b with
    | some b => [some (intStr b)]
    | none => []

/-- The padded parts. -/
def elemFull (e : Elem) : List (Option Str) := [e.a.map intStr, some e.name, e.b.map intStr]

theorem splitColon_elem {e : Elem} (h : GoodName e.name) :
    (splitColon e.text).map some = elemParts e := by
  obtain ⟨a, x, b⟩ := e
  have hx : ':' ∉ x := h.1
  cases a with
  | none =>
    cases b with
    | none =>
      have : (⟨none, x, none⟩ : Elem).text = joinColon [x] := by simp [Elem.text, joinColon]
      rw [this, splitColon_join (by simpa using hx) (by simp)]
      rfl
    | some b =>
      have : (⟨none, x, some b⟩ : Elem).text = joinColon [x, intStr b] := by
        simp [Elem.text, joinColon]
      rw [this, splitColon_join (by simp [hx, intStr_noColon]) (by simp)]
      rfl
  | some a =>
    cases b with
    | none =>
      have : (⟨some a, x, none⟩ : Elem).text = joinColon [intStr a, x] := by
        simp [Elem.text, joinColon]
      rw [this, splitColon_join (by simp [hx, intStr_noColon]) (by simp)]
      rfl
    | some b =>
      have : (⟨some a, x, some b⟩ : Elem).text = joinColon [intStr a, x, intStr b] := by
        simp [Elem.text, joinColon]
      rw [this, splitColon_join (by simp [hx, intStr_noColon]) (by simp)]
      rfl

theorem pyInt_elem {e : Elem} (h : GoodName e.name) : pyInt e.text = none := by
  obtain ⟨a, x, b⟩ := e
  cases a with
  | some a => exact pyInt_colon (by simp [Elem.text])
  | none =>
    cases b with
    | some b => exact pyInt_colon (by simp [Elem.text])
    | none => simpa [Elem.text] using h.2.2

theorem elemParts_full {e : Elem} (ha : e.a.isSome) (hb : e.b.isSome) : elemParts e = elemFull e := by
  obtain ⟨a, x, b⟩ := e
  cases a <;> cases b <;> simp_all [elemParts, elemFull]

theorem pad_front {e : Elem} (hb : e.b.isSome) :
    (if (elemParts e).length = 2 then none :: elemParts e else elemParts e) = elemFull e := by
  obtain ⟨a, x, b⟩ := e
  cases a <;> cases b <;> simp_all [elemParts, elemFull]

theorem pad_back {e : Elem} (ha : e.a.isSome) :
    (if (elemParts e).length = 2 then elemParts e ++ [none] else elemParts e) = elemFull e := by
  obtain ⟨a, x, b⟩ := e
  cases a <;> cases b <;> simp_all [elemParts, elemFull]

theorem full_length (e : Elem) : (elemFull e).length = 3 := rfl

theorem pad_chain {inp out : Option ℤ} {es : List Elem} (h : ChainOK inp es out) :
    ∃ mid, padFirst inp (es.map elemParts) = .ok mid ∧ padLast out mid = .ok (es.map elemFull) := by
  obtain ⟨hne, -, ht, hd, hi, ho, h1⟩ := h
  match es, hne with
  | [e], _ =>
    simp only [List.length_singleton, forall_const, List.mem_singleton, forall_eq] at h1
    simp only [List.head?_cons, Option.mem_def, Option.some.injEq, forall_eq'] at hi
    simp only [List.getLast?_singleton, Option.mem_def, Option.some.injEq, forall_eq'] at ho
    cases inp with
    | none =>
      have hb := h1 rfl
      refine ⟨[elemFull e], ?_, ?_⟩
      · simp only [padFirst, List.map_cons, List.map_nil, pad_front hb]
      · cases out <;> simp [padLast, full_length]
    | some z =>
      have ha := hi rfl
      refine ⟨[elemParts e], rfl, ?_⟩
      cases out with
      | none =>
        simp only [padLast, List.getLast?_singleton, List.dropLast_singleton, List.nil_append, pad_back ha,
          List.map_cons, List.map_nil]
      | some q =>
        have hb := ho rfl
        simp [padLast, elemParts_full ha hb]
  | e :: e' :: l, _ =>
    simp only [List.tail_cons] at ht
    simp only [List.dropLast_cons₂] at hd
    simp only [List.head?_cons, Option.mem_def, Option.some.injEq, forall_eq'] at hi
    have hb := hd e (by simp)
    obtain ⟨m, last, hl⟩ : ∃ m last, e' :: l = m ++ [last] :=
      ⟨(e' :: l).dropLast, (e' :: l).getLast (by simp), (List.dropLast_append_getLast _).symm⟩
    rw [hl] at ht hd ho ⊢
    have hla : last.a.isSome := ht last (by simp)
    have hmid : m.map elemParts = m.map elemFull := by
      apply List.map_congr_left
      intro x hx
      exact elemParts_full (ht x (by simp [hx])) (hd x (by simp [hx]))
    refine ⟨elemFull e :: (m ++ [last]).map elemParts, ?_, ?_⟩
    · cases inp with
      | none => simp only [padFirst, List.map_cons, pad_front hb]
      | some z => simp [padFirst, elemParts_full (hi rfl) hb]
    · simp only [List.map_append, List.map_cons, List.map_nil, hmid]
      cases out with
      | none =>
        have : elemFull e :: (m.map elemFull ++ [elemParts last]) = (elemFull e :: m.map elemFull) ++ [elemParts last] := rfl
        have this' : elemFull e :: (m.map elemFull ++ [elemFull last]) = (elemFull e :: m.map elemFull) ++ [elemFull last] := rfl
        rw [this, this']
        generalize elemFull e :: m.map elemFull = L
        simp only [padLast, List.getLast?_append, List.getLast?_singleton, Option.some_or, List.dropLast_concat,
          pad_back hla]
      | some q =>
        have hlb : last.b.isSome := by
          apply ho rfl last
          have : e :: (m ++ [last]) = (e :: m) ++ [last] := rfl
          rw [this, List.getLast?_concat]; rfl
        simp [padLast, elemParts_full hla hlb]

theorem linkPairs_full : ∀ (es : List Elem), (∀ e ∈ es.tail, e.a.isSome) → (∀ e ∈ es.dropLast, e.b.isSome) →
    linkPairs (es.map elemFull) = ((between es).map Conn.text, .ok ()) := by
  intro es
  induction es with
  | nil => intro _ _; rfl
  | cons e es ih =>
    intro ht hd
    cases es with
    | nil => rfl
    | cons e' l =>
      have ih' := ih (fun x hx => ht x (List.mem_cons_of_mem _ hx)) (fun x hx => hd x (by
        simp only [List.dropLast_cons₂]; exact List.mem_cons_of_mem _ hx))
      have ha := ht e' (by simp)
      have hb := hd e (by simp)
      obtain ⟨b, hb⟩ := Option.isSome_iff_exists.mp hb
      obtain ⟨a, ha⟩ := Option.isSome_iff_exists.mp ha
      simp only [List.map_cons] at ih' ⊢
      have hfe : elemFull e = [e.a.map intStr, some e.name, e.b.map intStr] := rfl
      have hfe' : elemFull e' = [e'.a.map intStr, some e'.name, e'.b.map intStr] := rfl
      rw [hfe, hfe', linkPairs, ← hfe', ih']
      simp [between, ha, hb, fmt, joinColon, Conn.text]

theorem linkIn_full {inp : Option ℤ} {es : List Elem} (hne : es ≠ [])
    (hi : inp.isSome → ∀ e ∈ es.head?, e.a.isSome) :
    linkIn inp (es.map elemFull).head? = (((es.head?.bind fun e =>
      Option.map₂ (fun a p => Conn.outer e.name a p) e.a inp).toList).map Conn.text, .ok ()) := by
  cases es with
  | nil => exact absurd rfl hne
  | cons e l =>
    simp only [List.map_cons, List.head?_cons, elemFull, linkIn, Option.bind_some]
    cases inp with
    | none => simp
    | some p =>
      obtain ⟨a, ha⟩ := Option.isSome_iff_exists.mp (hi rfl e (by simp))
      simp [ha, fmt, joinColon, Conn.text]

theorem linkOut_full {out : Option ℤ} {es : List Elem} (hne : es ≠ [])
    (ho : out.isSome → ∀ e ∈ es.getLast?, e.b.isSome) :
    linkOut out (es.map elemFull).getLast? = (((es.getLast?.bind fun e =>
      Option.map₂ (fun b p => Conn.outer e.name b p) e.b out).toList).map Conn.text, .ok ()) := by
  obtain ⟨m, e, rfl⟩ : ∃ m last, es = m ++ [last] :=
    ⟨es.dropLast, es.getLast hne, (List.dropLast_append_getLast _).symm⟩
  simp only [List.map_append, List.map_cons, List.map_nil, List.getLast?_append, List.getLast?_singleton,
    Option.some_or, elemFull, linkOut, Option.bind_some]
  cases out with
  | none => simp
  | some p =>
    obtain ⟨b, hb⟩ := Option.isSome_iff_exists.mp (ho rfl e (by simp))
    simp [hb, fmt, joinColon, Conn.text]

theorem linkFirst_chain {inp : Option ℤ} {ia rest : List LinkArg} (h : ArgFor inp ia)
    (hr : ∃ s l, rest = .str s :: l ∧ pyInt s = none) : linkFirst (ia ++ rest) = .ok (inp, rest) := by
  obtain ⟨s, l, rfl, hs⟩ := hr
  cases inp with
  | none => rcases h with rfl | rfl <;> simp [linkFirst, hs]
  | some z => rcases h with rfl | rfl <;> simp [linkFirst, pyInt_intStr]

theorem linkLast_chain {first out : Option ℤ} {oa rest : List LinkArg} (h : ArgFor out oa)
    (hr : ∃ s l, rest = l ++ [.str s] ∧ pyInt s = none) : linkLast first (rest ++ oa) = (out, rest) := by
  obtain ⟨s, l, rfl, hs⟩ := hr
  cases out with
  | none => rcases h with rfl | rfl <;> simp [linkLast, hs]
  | some z => rcases h with rfl | rfl <;> simp [linkLast, pyInt_intStr]

/-- The connections a chain declares. -/
theorem linkConns_chain (inp out : Option ℤ) (es : List Elem) (ia oa : List LinkArg)
    (hi : ArgFor inp ia) (ho : ArgFor out oa) (h : ChainOK inp es out) :
    linkConns (ia ++ es.map (fun e => .str e.text) ++ oa) = ((chain inp es out).map Conn.text, .ok ()) := by
  obtain ⟨hne, hg, ht, hd, hi', ho', h1⟩ := h
  obtain ⟨mid, hm1, hm2⟩ := pad_chain ⟨hne, hg, ht, hd, hi', ho', h1⟩
  have hf : linkFirst (ia ++ es.map (fun e => .str e.text) ++ oa) =
      .ok (inp, es.map (fun e => .str e.text) ++ oa) := by
    rw [List.append_assoc]
    apply linkFirst_chain hi
    cases es with
    | nil => exact absurd rfl hne
    | cons e l => exact ⟨_, _, rfl, pyInt_elem (hg e (by simp))⟩
  have hl : linkLast inp (es.map (fun e => .str e.text) ++ oa) = (out, es.map fun e => .str e.text) := by
    apply linkLast_chain ho
    obtain ⟨m, e, rfl⟩ : ∃ m last, es = m ++ [last] :=
      ⟨es.dropLast, es.getLast hne, (List.dropLast_append_getLast _).symm⟩
    exact ⟨e.text, m.map fun e => .str e.text, by simp, pyInt_elem (hg e (by simp))⟩
  have hs : mapE splitArg (es.map fun e => .str e.text) = .ok (es.map elemParts) := by
    apply mapE_map_ok
    intro e he
    simp only [splitArg, splitColon_elem (hg e he)]
  unfold linkConns
  rw [hf]
  simp only [hl, hs, hm1, hm2]
  rw [if_neg (by simpa using hne)]
  rw [linkPairs_full es ht hd]
  simp only [appendThen, linkIn_full hne hi', linkOut_full hne ho']
  simp [chain]

/-- C13. `link` with a proper chain declares exactly the connections of the chain: it appends their
texts to the network's connections, in order, and rebuilds the network. -/
theorem C13_link (s : NetState) (inp out : Option ℤ) (es : List Elem) (ia oa : List LinkArg)
    (hi : ArgFor inp ia) (ho : ArgFor out oa) (h : ChainOK inp es out) :
    link s (ia ++ es.map (fun e => .str e.text) ++ oa) =
      netSetBuffers { s with conns := s.conns ++ (chain inp es out).map Conn.text } := by
  have hc := linkConns_chain inp out es ia oa hi ho h
  unfold link
  simp only [hc]

/-- C13. Different connections are written differently: the recorded texts determine components and
ports. -/
theorem C13_text_injective (c d : Conn) (hc : ∀ x ∈ c.names, GoodName x) (hd : ∀ x ∈ d.names, GoodName x)
    (h : c.text = d.text) : c = d := by
  have hint : ∀ {i j : ℤ}, intStr i = intStr j → i = j := by
    intro i j h
    have := congrArg pyInt h
    simpa [pyInt_intStr] using this
  have hs : splitColon c.text = splitColon d.text := by rw [h]
  cases c with
  | inner a i b j =>
    have ha := (hc a (by simp [Conn.names])).1
    have hb := (hc b (by simp [Conn.names])).1
    cases d with
    | inner a' i' b' j' =>
      have ha' := (hd a' (by simp [Conn.names])).1
      have hb' := (hd b' (by simp [Conn.names])).1
      rw [splitColon_inner i j ha hb, splitColon_inner i' j' ha' hb'] at hs
      simp only [List.cons.injEq, and_true] at hs
      obtain ⟨rfl, hi, rfl, hj⟩ := hs
      rw [hint hi, hint hj]
    | outer a' i' p' =>
      rw [splitColon_inner i j ha hb, splitColon_outer i' p' (hd a' (by simp [Conn.names])).1] at hs
      simp at hs
  | outer a i p =>
    have ha := (hc a (by simp [Conn.names])).1
    cases d with
    | inner a' i' b' j' =>
      rw [splitColon_outer i p ha, splitColon_inner i' j' (hd a' (by simp [Conn.names])).1
        (hd b' (by simp [Conn.names])).1] at hs
      simp at hs
    | outer a' i' p' =>
      rw [splitColon_outer i p ha, splitColon_outer i' p' (hd a' (by simp [Conn.names])).1] at hs
      simp only [List.cons.injEq, and_true] at hs
      obtain ⟨rfl, hi, hp⟩ := hs
      rw [hint hi, hint hp]

/-- The documented example `link(0, '0:dc:2', '0:wg:1', '3:dc:1', 1)`. -/
example : ChainOK (some 0) [⟨some 0, ['d', 'c'], some 2⟩, ⟨some 0, ['w', 'g'], some 1⟩,
      ⟨some 3, ['d', 'c'], some 1⟩] (some 1) ∧
    chain (some 0) [⟨some 0, ['d', 'c'], some 2⟩, ⟨some 0, ['w', 'g'], some 1⟩,
      ⟨some 3, ['d', 'c'], some 1⟩] (some 1) =
      [.inner ['d', 'c'] 2 ['w', 'g'] 0, .inner ['w', 'g'] 1 ['d', 'c'] 3, .outer ['d', 'c'] 0 0,
        .outer ['d', 'c'] 1 1] := by
  refine ⟨⟨by simp, ?_, by simp, by simp, by simp, by simp, by simp⟩, by decide⟩
  intro e he
  simp only [List.mem_cons, List.not_mem_nil, or_false] at he
  rcases he with rfl | rfl | rfl <;> exact goodName_dec (by decide)

/-! ## C23 After a failed `link` -/

/-- The full statement: a `link` that fails leaves the connections as they were. -/
def C23_statement : Prop := ∀ (s : NetState) (args : List LinkArg) (e : PyErr),
  (link s args).2 = .error e → (link s args).1.conns = s.conns

/-- It fails: the connection to a misspelt component stays recorded. -/
theorem C23_violation : ¬ C23_statement := by
  intro H
  have := H ⟨none, ['n'], [(['w'], passive 2)], [], [], none⟩ [.str "0:w:1".toList, .str "0:v:1".toList]
    .keyError (by decide +kernel)
  revert this
  decide +kernel

/-- A part of some recorded connection is neither an integer nor a component. -/
def Poisoned (s : NetState) : Prop :=
  s.modules ≠ [] ∧ ∃ conn ∈ s.conns, ∃ x ∈ splitColon (stripConn conn), pyInt x = none ∧
    x ∉ s.modules.map Prod.fst

theorem strip_strip (s : Str) : strip (strip s) = strip s := by
  unfold strip
  set u := s.dropWhile isSpace with hu
  set t := (u.reverse.dropWhile isSpace).reverse with ht
  have h1 : t.dropWhile isSpace = t := by
    rw [List.dropWhile_eq_self_iff]
    intro hl
    have hpre : t <+: u := by
      have : (u.reverse.dropWhile isSpace) <:+ u.reverse := List.dropWhile_suffix _
      rw [← List.reverse_prefix, List.reverse_reverse] at this
      exact this
    obtain ⟨w, hw⟩ := hpre
    have hne : u ≠ [] := by rintro h; rw [h] at hw; simp [List.append_eq_nil_iff.mp hw] at hl
    have h0 := List.head_dropWhile_not isSpace (l := s) (by rw [← hu]; exact hne)
    have : t[0] = u.head hne := by
      have : u.head hne = u[0]'(List.length_pos_of_ne_nil hne) := by rw [List.head_eq_getElem]
      rw [this]
      simp only [← hw, List.getElem_append_left hl]
    rw [this]
    simpa [hu] using h0
  rw [h1, ht, List.reverse_reverse, List.dropWhile_idempotent]

theorem splitColon_noColon (s : Str) : ∀ p ∈ splitColon s, ':' ∉ p := by
  unfold splitColon
  induction s with
  | nil => intro p hp; simp at hp; simp [hp]
  | cons c s ih =>
    rw [List.splitOn_cons_eq_if_modifyHead]
    intro p hp
    by_cases hc : (c == ':') = true
    · rw [if_pos hc] at hp
      rcases List.mem_cons.mp hp with rfl | hp
      · simp
      · exact ih p hp
    · rw [if_neg hc] at hp
      cases hs : List.splitOn ':' s with
      | nil => exact absurd hs (List.splitOn_ne_nil _ _)
      | cons q qs =>
        rw [hs] at hp ih
        simp only [List.modifyHead_cons, List.mem_cons] at hp
        rcases hp with rfl | hp
        · have := ih q (by simp)
          simp only [List.mem_cons, not_or]
          exact ⟨fun h => hc (by simp [← h]), this⟩
        · exact ih p (by simp [hp])

theorem strip_mem {c : Char} {s : Str} (h : c ∈ strip s) : c ∈ s := by
  unfold strip at h
  rw [List.mem_reverse] at h
  have := (List.dropWhile_sublist _).subset h
  rw [List.mem_reverse] at this
  exact (List.dropWhile_sublist _).subset this

theorem stripConn_stripConn (s : Str) : stripConn (stripConn s) = stripConn s := by
  unfold stripConn
  rw [splitColon_join]
  · rw [List.map_map]
    congr 1
    apply List.map_congr_left
    intro p _
    exact strip_strip p
  · intro p hp
    obtain ⟨q, hq, rfl⟩ := List.mem_map.mp hp
    exact fun h => splitColon_noColon s q hq (strip_mem h)
  · simp [splitColon, List.splitOn_ne_nil]

theorem poisoned_step (s : NetState) (h : Poisoned s) (args : List LinkArg) :
    (∃ e, (link s args).2 = .error e) ∧ Poisoned (link s args).1 := by
  obtain ⟨hm, conn, hc, x, hx, hi, hno⟩ := h
  unfold link
  cases hr : (linkConns args).2 with
  | error e =>
    simp only [hr]
    exact ⟨⟨e, rfl⟩, hm, conn, by simp [hc], x, hx, hi, hno⟩
  | ok u =>
    simp only [hr]
    set s' : NetState := { s with conns := s.conns ++ (linkConns args).1 } with hs'
    have hmem : conn ∈ s'.conns := by simp [hs', hc]
    have hbad := C16_bad_part s'.name s'.modules s'.conns conn hmem x hx hi hno
    unfold netSetBuffers
    rw [if_neg (List.ne_nil_of_mem hmem), if_neg hm, hbad]
    refine ⟨⟨_, rfl⟩, hm, stripConn conn, List.mem_map_of_mem hmem, x, ?_, hi, hno⟩
    rw [stripConn_stripConn]; exact hx

/-- Several calls of `link`, one after the other, whatever each of them raises. -/
def links (s : NetState) : List (List LinkArg) → NetState
  | [] => s
  | a :: as => links (link s a).1 as

/-- C23. Once a connection to an unknown component has been recorded by a failed `link`, every later
`link`, however well-formed, fails too. -/
theorem C23_poisoned_forever (s : NetState) (h : Poisoned s) (calls : List (List LinkArg)) (args : List LinkArg) :
    ∃ e, (link (links s calls) args).2 = .error e := by
  induction calls generalizing s with
  | nil => exact (poisoned_step s h args).1
  | cons a as ih => exact ih _ (poisoned_step s h a).2

/-- A network that became unusable: modules `w`, and `v` was never added. -/
example : Poisoned ⟨none, ['n'], [(['w'], passive 2)], [], ["w:1:v:0".toList], none⟩ := by
  refine ⟨by simp, _, List.mem_singleton.mpr rfl, ['v'], by decide +kernel, by decide +kernel, by decide⟩

theorem link_ok {s : NetState} {args : List LinkArg} (h : (linkConns args).2 = .ok ()) :
    link s args = netSetBuffers { s with conns := s.conns ++ (linkConns args).1 } := by
  unfold link; simp only [h]

theorem link_error {s : NetState} {args : List LinkArg} {e : PyErr} (h : (linkConns args).2 = .error e) :
    link s args = ({ s with conns := s.conns ++ (linkConns args).1 }, .error e) := by
  unfold link; simp only [h]

/-- The state after rebuilding. -/
theorem netSetBuffers_fst (s : NetState) (hc : s.conns ≠ []) (hm : s.modules ≠ []) :
    (netSetBuffers s).1.conns = s.conns.map stripConn ∧ (netSetBuffers s).1.modules = s.modules ∧
      (netSetBuffers s).1.name = s.name ∧ (netSetBuffers s).1.cls = s.cls := by
  unfold netSetBuffers
  rw [if_neg hc, if_neg hm]
  cases mkNet s.name s.modules s.conns <;> simp

/-- Rebuilding depends only on names, modules and connections. -/
theorem netSetBuffers_congr {s t : NetState} (h1 : s.conns = t.conns) (h2 : s.modules = t.modules)
    (h3 : s.name = t.name) (h4 : s.cls = t.cls) (hc : s.conns ≠ []) (hm : s.modules ≠ []) :
    netSetBuffers s = netSetBuffers t := by
  obtain ⟨n, cl, m, co, cn, b⟩ := s
  obtain ⟨n', cl', m', co', cn', b'⟩ := t
  simp only at h1 h2 h3 h4 hc hm
  subst h1 h2 h3 h4
  unfold netSetBuffers
  simp only [if_neg hc, if_neg hm]

/-- C23, what holds. (1) A `link` whose arguments are rejected before the first connection string is
formed leaves the network unchanged. (2) A network that became unusable because of a missing component
is repaired by adding that component: the next `link` then gives exactly the network that would have
resulted if the component had been there from the beginning.
(Missing: failures while the network is rebuilt are not undone, see `C23_violation`.) -/
theorem C23_repair_partial (s : NetState) :
    (∀ args e, linkConns args = ([], .error e) → link s args = (s, .error e)) ∧
    (∀ a b x c, s.modules ≠ [] → (linkConns a).2 = .ok () → (linkConns b).2 = .ok () →
      link { (link s a).1 with modules := dictSet x c (link s a).1.modules } b =
        link (link { s with modules := dictSet x c s.modules } a).1 b) := by
  constructor
  · intro args e he
    simp [link, he]
  · intro a b x c hm ha hb
    have hd : ∀ m : Comps, dictSet x c m ≠ [] := by
      intro m
      cases m with
      | nil => simp [dictSet]
      | cons q m => obtain ⟨y, d⟩ := q; simp only [dictSet]; split <;> simp
    rw [link_ok ha, link_ok ha, link_ok hb, link_ok hb]
    set new := (linkConns a).1
    by_cases hc : s.conns ++ new = []
    · have h1 : netSetBuffers { s with conns := s.conns ++ new } = ({ s with conns := s.conns ++ new }, .ok ()) := by
        unfold netSetBuffers; rw [if_pos hc]
      have h2 : netSetBuffers { s with modules := dictSet x c s.modules, conns := s.conns ++ new } =
          ({ s with modules := dictSet x c s.modules, conns := s.conns ++ new }, .ok ()) := by
        unfold netSetBuffers; rw [if_pos hc]
      rw [h1, h2]
    · obtain ⟨p1, p2, p3, p4⟩ := netSetBuffers_fst { s with conns := s.conns ++ new } hc hm
      obtain ⟨q1, q2, q3, q4⟩ := netSetBuffers_fst
        { s with modules := dictSet x c s.modules, conns := s.conns ++ new } hc (hd _)
      apply netSetBuffers_congr
      · simp only [p1, q1]
      · simp only [p2, q2]
      · simp only [p3, q3]
      · simp only [p4, q4]
      · simp only [p1]
        intro h
        have := (List.append_eq_nil_iff.mp h).1
        rw [List.map_eq_nil_iff] at this
        exact hc this
      · exact hd _

/-- Hypotheses of part (2): the misspelt chain is well formed and fails, and works after `v` was
added. -/
example : (linkConns [.str "0:w:1".toList, .str "0:v:1".toList]).2 = .ok () ∧
    (link ⟨none, ['n'], [(['w'], passive 2)], [], [], none⟩ [.str "0:w:1".toList, .str "0:v:1".toList]).2 =
      .error .keyError ∧
    (link ⟨none, ['n'], [(['w'], passive 2), (['v'], passive 2)], [], [], none⟩
      [.str "0:w:1".toList, .str "0:v:1".toList]).2 = .ok () := by
  refine ⟨by decide +kernel, by decide +kernel, by decide +kernel⟩

/-! ## Examples of use -/

theorem ring_ports : PortsExist ringModules ringConns := by
  have hd : dictGet ['d'] ringModules = some (passive 4) := by simp [ringModules, dictGet]
  have hw : dictGet ['w'] ringModules = some (passive 2) := by simp [ringModules, dictGet]
  have h4 : (freePorts (passive 4)).length = 4 := by decide +kernel
  have h2 : (freePorts (passive 2)).length = 2 := by decide +kernel
  intro c hc
  simp only [ringConns, List.mem_cons, List.not_mem_nil, or_false] at hc
  rcases hc with rfl | rfl | rfl | rfl
  · exact ⟨⟨_, hd, by decide, by rw [h4]; decide⟩, ⟨_, hw, by decide, by rw [h2]; decide⟩, by decide⟩
  · exact ⟨⟨_, hw, by decide, by rw [h2]; decide⟩, ⟨_, hd, by decide, by rw [h4]; decide⟩, by decide⟩
  · exact ⟨_, hd, by decide, by rw [h4]; decide⟩
  · exact ⟨_, hd, by decide, by rw [h4]; decide⟩

example : ∃ c, mkNet none ringModules (ringConns.map Conn.text) = .ok c ∧ OrderOK c :=
  C61_accepted none _ _ (fun p hp => ⟨(ring_clean p hp).1, (ring_clean p hp).2.1⟩) ring_good (by decide) ring_ports ring_contiguous

/-- One call of `link` declares the ring's connections, here with one external port given as an integer and one as a string. -/
example (s : NetState) : link s [.int 0, .str "0:d:2".toList, .str "0:w:1".toList, .str "3:d:1".toList, .str "1".toList] =
    netSetBuffers { s with conns := s.conns ++ ringConns.map Conn.text } := by
  have h := C13_link s (some 0) (some 1) [⟨some 0, ['d'], some 2⟩, ⟨some 0, ['w'], some 1⟩, ⟨some 3, ['d'], some 1⟩] [.int 0]
    [.str (intStr 1)] (.inl rfl) (.inr rfl) ⟨by simp, by
      intro e he
      simp only [List.mem_cons, List.not_mem_nil, or_false] at he
      rcases he with rfl | rfl | rfl <;> exact goodName_dec (by decide), by simp, by simp, by simp, by simp, by simp⟩
  have h1 : ([.int 0] : List LinkArg) ++ ([⟨some 0, ['d'], some 2⟩, ⟨some 0, ['w'], some 1⟩, ⟨some 3, ['d'], some 1⟩] : List Elem).map
      (fun e => .str e.text) ++ [.str (intStr 1)] =
      [.int 0, .str "0:d:2".toList, .str "0:w:1".toList, .str "3:d:1".toList, .str "1".toList] := by decide +kernel
  rw [h1] at h
  exact h

example : (Conn.inner ['d'] 2 ['w'] 0).text ≠ (Conn.inner ['d'] 2 ['w'] 1).text := fun h => by
  have := C13_text_injective _ _ (by simp [Conn.names]; exact ⟨goodName_dec (by decide), goodName_dec (by decide)⟩)
    (by simp [Conn.names]; exact ⟨goodName_dec (by decide), goodName_dec (by decide)⟩) h
  simp at this

/-- After a call that names a component which does not exist, correct calls raise too. -/
example (calls : List (List LinkArg)) : ∃ e, (link (links ⟨none, ['n'], [(['w'], passive 2)], [], ["w:1:v:0".toList], none⟩ calls)
    [.str "0:w:1".toList, .int 1]).2 = .error e :=
  C23_poisoned_forever _ ⟨by simp, _, List.mem_singleton.mpr rfl, ['v'], by decide +kernel, by decide +kernel, by decide⟩ _ _

/-- A component added after a failed call counts as if it had been there before. -/
example (v : Comp) : link { (link ⟨none, ['n'], [(['w'], passive 2)], [], [], none⟩ [.str "0:w:1".toList, .str "0:v:1".toList]).1 with
      modules := dictSet ['v'] v (link ⟨none, ['n'], [(['w'], passive 2)], [], [], none⟩ [.str "0:w:1".toList, .str "0:v:1".toList]).1.modules }
      [.str "1:v:0".toList, .str "0:w:1".toList] =
    link (link ⟨none, ['n'], [(['w'], passive 2), (['v'], v)], [], [], none⟩ [.str "0:w:1".toList, .str "0:v:1".toList]).1
      [.str "1:v:0".toList, .str "0:w:1".toList] :=
  (C23_repair_partial ⟨none, ['n'], [(['w'], passive 2)], [], [], none⟩).2 _ _ ['v'] v (by simp) (by decide +kernel) (by decide +kernel)

end PT
