import Verif.Proof.Site

/-!
# C138, C139: networks may be built in any way; networks that change later
-/

namespace PT
open Spec

theorem byDictionary_eq {name : Option Str} {m : Comps} {cs : List Conn} {c : Comp} (hne : cs ≠ [])
    (hn : (m.map Prod.fst).Nodup) (hx : ∀ p ∈ m, AttrName p.1 ∧ p.2.name = some p.1) (hp : PortsExist m cs)
    (hk : mkNet name m (cs.map Conn.text) = .ok c) : byDictionary name m cs = some c := by
  have hm : m ≠ [] := by
    rintro rfl
    obtain ⟨d, hd⟩ := List.exists_mem_of_ne_nil _ hne
    have := hp d hd
    cases d with
    | inner a i b j => obtain ⟨⟨_, h, _⟩, _⟩ := this; cases h
    | outer a i p => obtain ⟨_, h, _⟩ := this; cases h
  unfold byDictionary newNetwork
  rw [addAll_ok _ _ rfl fun p hp => ⟨(hx p hp).1.2.1, (hx p hp).1.2.2, .inr (hx p hp).2⟩,
    foldl_dictSet _ _ (by simpa using hn)]
  simp only [List.nil_append]
  unfold netSetBuffers
  simp only
  rw [if_neg (by simpa using hne), if_neg hm]
  simp only [hk]

/-- The networks of a plan: what the parts are and what the program for them does. -/
structure Makes (ps : Parts) (m : Comps) : Prop where
  comps : ps.comps = some m
  names : m.map Prod.fst = ps.names
  nodup : ps.names.Nodup
  ok : ∀ p ∈ m, Built p.2 ∧ OrderOK p.2
  attr : ∀ p ∈ m, AttrName p.1 ∧ p.2.name = some p.1
  run : ∀ (s : Site) (x : ℕ) (rest : List ℕ) (o : NetObj) (m0 : Comps), s.stack = x :: rest → HasParts s x o m0 →
    o.used = [] → (∀ n ∈ ps.names, n ∉ o.items.map Prod.fst) →
    ∃ s' its, (ps.script x).run s = (s', .ok ()) ∧ s'.stack = s.stack ∧ s.objs.length ≤ s'.objs.length ∧
      (∀ z < s.objs.length, z ≠ x → s'.objs[z]? = s.objs[z]?) ∧
      HasParts s' x { o with items := o.items ++ its } (m0 ++ m)

/-- The body of a with-block over a new network. -/
theorem body_spec {ps : Parts} {m : Comps} (h : Makes ps m) {calls : List LinkCall} (hf : Fits ps calls)
    (s : Site) (k : ℕ) (rest : List ℕ) (name : Option Str) (hst : s.stack = k :: rest)
    (ho : s.objs[k]? = some ⟨name, [], [], [], none⟩) (hk : s.objs.length = k + 1) :
    ∃ s' o c, (Build.seq (ps.script k) (callsScript k calls)).run s = (s', .ok ()) ∧ s'.stack = s.stack ∧
      s.objs.length ≤ s'.objs.length ∧ (∀ z < k, s'.objs[z]? = s.objs[z]?) ∧ s'.objs[k]? = some o ∧ o.name = name ∧
      o.buf = some c ∧ mkNet name m ((declared calls).map Conn.text) = .ok c := by
  obtain ⟨s1, its, a1, a2, a3, a4, a5⟩ := h.run s k rest _ [] hst ⟨ho, .nil⟩ rfl (by simp)
  obtain ⟨hok, hne, hcont, hports⟩ := hf
  have hg := declared_good hok
  obtain ⟨s2, o2, b1, b2, b3, b4, b5, b6, b7, b8⟩ := calls_spec (x := k) (m := [] ++ m) (by simpa using h.ok) calls s1 _ [] rest hok a5 rfl
    (a2.trans hst) (by simpa using hg) (by simpa using hports m h.comps) (by simpa using contiguous_differ hcont)
  obtain ⟨c, hc1, hc2⟩ := b8 (by rintro rfl; exact hne rfl) (by simpa using hne)
  refine ⟨s2, o2, c, ?_, b2.trans a2, by omega, fun z hz => (b4 z hz).trans (a4 z (by omega) (by omega)), b5.obj, b6, hc1, by simpa using hc2⟩
  rw [Build.run, a1]
  exact b1

/-- What comes of the calls, made with dictionaries. -/
theorem dict_spec {ps : Parts} {m : Comps} (h : Makes ps m) {calls : List LinkCall} (hf : Fits ps calls) {name : Option Str} {c : Comp}
    (hk : mkNet name m ((declared calls).map Conn.text) = .ok c) :
    byDictionary name m (declared calls) = some c ∧ Built c ∧ OrderOK c := by
  obtain ⟨hok, hne, hcont, hports⟩ := hf
  refine ⟨byDictionary_eq hne (by rw [h.names]; exact h.nodup) h.attr (hports m h.comps) hk,
    .net name m _ c (fun p hp => (h.ok p hp).1) hk,
    C19_permutation_partial name m _ c h.ok (declared_good hok) hcont hk⟩

/-- Adding an item. -/
theorem add_spec {s : Site} {x : ℕ} {o : NetObj} {n : Str} {it : Item} (ho : s.objs[x]? = some o) (hu : o.used = [])
    (hn : AttrName n) (hi : n ∉ o.items.map Prod.fst) (hname : s.nameOf it = none ∨ s.nameOf it = some n) :
    s.add x n it = (s.put x { o with items := o.items ++ [(n, it)] }, .ok ()) := by
  unfold Site.add
  rw [ho]
  simp only
  rw [if_neg (by simp [hu]), if_neg (by rcases hname with h | h <;> simp [h]), if_neg (by
    rintro (h | h)
    · exact hn.2.1 h
    · exact hn.2.2 h), dictSet_new hi]

theorem register_add {s : Site} {x : ℕ} {rest : List ℕ} (h : s.stack = x :: rest) (n : Str) (it : Item) :
    s.register (some n) it = s.add x n it := by
  obtain ⟨objs, stack⟩ := s
  simp only at h
  subst h
  rfl

/-- One item more. -/
theorem HasParts.add {s : Site} {x : ℕ} {o : NetObj} {m : Comps} (h : HasParts s x o m) {n : Str} {it : Item} {c d : Comp}
    (hc : s.comp it = some c) (hs : SameComp c d) (hr : ∀ y, it = .net y → x < y) :
    HasParts (s.put x { o with items := o.items ++ [(n, it)] }) x { o with items := o.items ++ [(n, it)] } (m ++ [(n, d)]) := by
  have h1 : HasParts s x o m := h
  refine ⟨put_get h.obj _, ?_⟩
  have hcomp : ∀ it', (∀ y, it' = Item.net y → x < y) →
      (s.put x { o with items := o.items ++ [(n, it)] }).comp it' = s.comp it' := by
    intro it' hr'
    cases it' with
    | leaf e => rfl
    | net y =>
      unfold Site.comp
      simp only
      rw [put_other (by have := hr' y rfl; omega)]
  refine List.rel_append (h.items.imp ?_) (.cons ?_ .nil)
  · rintro p q ⟨h1, ⟨e, h2, h3⟩, h4⟩
    exact ⟨h1, ⟨e, (hcomp _ h4).trans h2, h3⟩, h4⟩
  · exact ⟨rfl, ⟨c, (hcomp _ hr).trans hc, hs⟩, hr⟩

theorem lt_of_get {α : Type} {l : List α} {i : ℕ} {a : α} (h : l[i]? = some a) : i < l.length := by
  by_contra hh
  rw [List.getElem?_eq_none (by omega)] at h; cases h

theorem names_disjoint {n : Str} {ns : List Str} {its : List (Str × Item)} {it : Item} (hd : ∀ a ∈ n :: ns, a ∉ its.map Prod.fst)
    (hn : n ∉ ns) : ∀ a ∈ ns, a ∉ (its ++ [(n, it)]).map Prod.fst := by
  intro a ha hh
  rw [List.map_append, List.mem_append] at hh
  rcases hh with hh | hh
  · exact hd a (by simp [ha]) hh
  · simp only [List.map_cons, List.map_nil, List.mem_singleton] at hh
    subst hh; exact hn ha

/-- A step followed by the rest. -/
theorem seq_spec {r : Parts} {m : Comps} (hr : Makes r m) {p : Build} {s s1 : Site} {x : ℕ} {rest : List ℕ} {o : NetObj} {m0 : Comps} {n : Str} {it : Item}
    {d : Comp} (hst : s.stack = x :: rest) (hu : o.used = []) (hd : ∀ a ∈ n :: r.names, a ∉ o.items.map Prod.fst) (hn : n ∉ r.names)
    (h1 : p.run s = (s1, .ok ())) (hs1 : s1.stack = s.stack) (hl : s.objs.length ≤ s1.objs.length)
    (hfr : ∀ z < s.objs.length, z ≠ x → s1.objs[z]? = s.objs[z]?)
    (hh : HasParts s1 x { o with items := o.items ++ [(n, it)] } (m0 ++ [(n, d)])) :
    ∃ s' its, (Build.seq p (r.script x)).run s = (s', .ok ()) ∧ s'.stack = s.stack ∧ s.objs.length ≤ s'.objs.length ∧
      (∀ z < s.objs.length, z ≠ x → s'.objs[z]? = s.objs[z]?) ∧
      HasParts s' x { o with items := o.items ++ its } (m0 ++ (n, d) :: m) := by
  obtain ⟨s', its, b1, b2, b3, b4, b5⟩ := hr.run s1 x rest _ _ (hs1.trans hst) hh hu (names_disjoint hd hn)
  refine ⟨s', (n, it) :: its, ?_, b2.trans hs1, by omega, fun z hz hzx => (b4 z (by omega) hzx).trans (hfr z hz hzx), ?_⟩
  · rw [Build.run, h1]
    exact b1
  · simpa using b5

theorem makes_leaf {r : Parts} {m : Comps} (hr : Makes r m) {n : Str} {named : Bool} {c : Comp} (hn : AttrName n) (hnr : n ∉ r.names)
    (hb : Built c) (ho : OrderOK c) : Makes (.leaf n named c r) ((n, { c with name := some n }) :: m) where
  comps := by simp [Parts.comps, hr.comps]
  names := by simp [Parts.names, hr.names]
  nodup := by simpa [Parts.names] using ⟨hnr, hr.nodup⟩
  ok := by
    intro p hp
    rcases List.mem_cons.mp hp with rfl | hp
    · exact ⟨.named c _ hb, ho⟩
    · exact hr.ok p hp
  attr := by
    intro p hp
    rcases List.mem_cons.mp hp with rfl | hp
    · exact ⟨hn, rfl⟩
    · exact hr.attr p hp
  run := by
    intro s x rest o m0 hst hh hu hd
    have hno : n ∉ o.items.map Prod.fst := hd n (by simp [Parts.names])
    cases named with
    | true =>
      have h1 := add_spec (s := s) (it := .leaf { c with name := some n }) hh.obj hu hn hno (.inr rfl)
      have h2 := (show (Build.newComp n c).run s = _ from register_add hst n _).trans h1
      exact seq_spec hr hst hu hd hnr h2 rfl (by simp [Site.put]) (fun z _ hz => put_other hz _)
        (hh.add (c := { c with name := some n }) rfl rfl (by simp))
    | false =>
      have h1 := add_spec (s := s) (it := .leaf { c with name := none }) hh.obj hu hn hno (.inl rfl)
      exact seq_spec hr hst hu hd hnr h1 rfl (by simp [Site.put]) (fun z _ hz => put_other hz _)
        (hh.add (c := { c with name := none }) rfl rfl (by simp))

theorem same_named {name name' : Option Str} {m : Comps} {conns : List Str} {c c' : Comp} (h : mkNet name m conns = .ok c)
    (h' : mkNet name' m conns = .ok c') : SameComp c c' := by
  rw [mkNet_named name name', h] at h'
  simp only [Except.map, Except.ok.injEq] at h'
  rw [← h']; rfl

theorem makes_net {ps r : Parts} {mp m : Comps} (hp : Makes ps mp) (hr : Makes r m) {calls : List LinkCall} (hf : Fits ps calls) {n : Str}
    {named : Bool} (hn : AttrName n) (hnr : n ∉ r.names) {c : Comp} (hk : mkNet (some n) mp ((declared calls).map Conn.text) = .ok c) :
    Makes (.net n named ps calls r) ((n, c) :: m) where
  comps := by simp [Parts.comps, hp.comps, (dict_spec hp hf hk).1, hr.comps]
  names := by simp [Parts.names, hr.names]
  nodup := by simpa [Parts.names] using ⟨hnr, hr.nodup⟩
  ok := by
    intro p hp'
    rcases List.mem_cons.mp hp' with rfl | hp'
    · exact (dict_spec hp hf hk).2
    · exact hr.ok p hp'
  attr := by
    intro p hp'
    rcases List.mem_cons.mp hp' with rfl | hp'
    · refine ⟨hn, ?_⟩
      have := mkNet_named (some n) (some n) mp ((declared calls).map Conn.text)
      rw [hk] at this
      simp only [Except.map, Except.ok.injEq] at this
      rw [this]
    · exact hr.attr p hp'
  run := by
    intro s x rest o m0 hst hh hu hd
    have hno : n ∉ o.items.map Prod.fst := hd n (by simp [Parts.names])
    have hx := lt_of_get hh.obj
    cases named with
    | true =>
      set k := s.objs.length with hkd
      let s0 : Site := { s with objs := s.objs ++ [⟨some n, [], [], [], none⟩] }
      have hk0 : s0.objs[k]? = some ⟨some n, [], [], [], none⟩ := by simp [s0, hkd]
      have hlt0 : ∀ z < k, s0.objs[z]? = s.objs[z]? := fun z hz => List.getElem?_append_left hz
      have hx0 : s0.objs[x]? = some o := (hlt0 x hx).trans hh.obj
      have hadd : s0.add x n (.net k) = (s0.put x { o with items := o.items ++ [(n, .net k)] }, .ok ()) :=
        add_spec hx0 hu hn hno (.inr (by simp [Site.nameOf, hk0]))
      set s1 := s0.put x { o with items := o.items ++ [(n, .net k)] } with hs1
      have hnew : s.newNet (some n) = (s1, .ok ()) := by
        have : s.newNet (some n) = s0.add x n (.net k) := register_add (s := s0) hst n _
        rw [this]; exact hadd
      have hlen1 : s1.objs.length = k + 1 := by simp [hs1, Site.put, s0, hkd]
      obtain ⟨s2, o2, c2, b1, b2, b3, b4, b5, b6, b7, b8⟩ := body_spec hp hf { s1 with stack := k :: s1.stack } k s1.stack (some n) rfl
        ((put_other (by omega) _).trans hk0) hlen1
      have hframe : ∀ z < k, z ≠ x → s2.objs[z]? = s.objs[z]? := fun z hz hzx =>
        (b4 z hz).trans ((put_other hzx _).trans (hlt0 z hz))
      have hx2 : s2.objs[x]? = some { o with items := o.items ++ [(n, .net k)] } := (b4 x hx).trans (put_get hx0 _)
      refine seq_spec (s1 := { s2 with stack := s1.stack }) (it := .net k) (d := c) hr hst hu hd hnr ?_ rfl ?_ (fun z hz hzx => hframe z hz hzx) ⟨hx2, ?_⟩
      · rw [Build.run, hnew]
        simp only [← hkd, b1]
        unfold Site.exit
        simp only [b2]
        rfl
      · show k ≤ s2.objs.length
        have : k + 1 ≤ s2.objs.length := hlen1 ▸ b3
        omega
      · refine List.rel_append (hh.items.imp ?_) (.cons ?_ .nil)
        · rintro ⟨a, it⟩ q ⟨h1, ⟨e, h2, h3⟩, h4⟩
          refine ⟨h1, ⟨e, ?_, h3⟩, h4⟩
          cases it with
          | leaf e => exact h2
          | net y =>
            rw [← h2]
            unfold Site.comp at h2 ⊢
            simp only at h2 ⊢
            have hy : y < k := by
              by_contra hcon
              rw [List.getElem?_eq_none (by omega)] at h2; cases h2
            have := h4 y rfl
            rw [hframe y hy (by omega)]
        · refine ⟨rfl, ⟨c2, ?_, same_named b8 hk⟩, fun y hy => ?_⟩
          · show s2.objs[k]?.bind NetObj.buf = _
            rw [b5]; exact b7
          · cases hy; exact hx
    | false =>
      set k := s.objs.length with hkd
      let s1 : Site := { s with objs := s.objs ++ [⟨none, [], [], [], none⟩] }
      have hk0 : s1.objs[k]? = some ⟨none, [], [], [], none⟩ := by simp [s1, hkd]
      have hlt0 : ∀ z < k, s1.objs[z]? = s.objs[z]? := fun z hz => List.getElem?_append_left hz
      have hnew : s.newNet none = (s1, .ok ()) := rfl
      have hlen1 : s1.objs.length = k + 1 := by simp [s1, hkd]
      obtain ⟨s2, o2, c2, b1, b2, b3, b4, b5, b6, b7, b8⟩ := body_spec hp hf { s1 with stack := k :: s1.stack } k s1.stack none rfl hk0 hlen1
      have hframe : ∀ z < k, s2.objs[z]? = s.objs[z]? := fun z hz => (b4 z hz).trans (hlt0 z hz)
      let s3 : Site := { s2 with stack := s1.stack }
      have hx2 : s3.objs[x]? = some o := (hframe x hx).trans hh.obj
      have hadd : s3.add x n (.net k) = (s3.put x { o with items := o.items ++ [(n, .net k)] }, .ok ()) :=
        add_spec hx2 hu hn hno (.inl (by
          show s2.objs[k]?.bind NetObj.name = none
          rw [b5]; exact b6))
      have hh3 : HasParts s3 x o m0 := hh.move hx2 rfl fun y e _ he => by
        rw [← he]
        unfold Site.comp at he ⊢
        simp only at he ⊢
        have hy : y < k := by
          by_contra hcon
          rw [List.getElem?_eq_none (by omega)] at he; cases he
        show s2.objs[y]?.bind NetObj.buf = _
        rw [hframe y hy]
      refine seq_spec (it := .net k) (d := c) hr hst hu hd hnr (s1 := s3.put x { o with items := o.items ++ [(n, .net k)] }) ?_ rfl ?_ (fun z hz hzx => ?_) ?_
      · rw [Build.run, hnew]
        simp only [← hkd, b1]
        unfold Site.exit
        simp only [b2]
        exact hadd
      · have : k + 1 ≤ s2.objs.length := hlen1 ▸ b3
        simp only [Site.put, List.length_set, s3]
        omega
      · rw [put_other hzx]
        exact hframe z hz
      · refine hh3.add (c := c2) ?_ (same_named b8 hk) fun y hy => ?_
        · show s2.objs[k]?.bind NetObj.buf = _
          rw [b5]; exact b7
        · cases hy; exact hx

theorem makes (ps : Parts) (h : ps.OK) : ∃ m, Makes ps m := by
  induction ps with
  | nil =>
    refine ⟨[], rfl, rfl, List.nodup_nil, by simp, by simp, ?_⟩
    intro s x rest o m0 hst hh hu _
    exact ⟨s, [], rfl, rfl, le_rfl, fun _ _ _ => rfl, by simpa using hh⟩
  | leaf n b c r ih =>
    obtain ⟨h1, h2, h3, h4, h5⟩ := h
    obtain ⟨m, hm⟩ := ih h5
    exact ⟨_, makes_leaf hm h1 h2 h3 h4⟩
  | net n b ps ls r ihp ihr =>
    obtain ⟨h1, h2, h3, h4, h5⟩ := h
    obtain ⟨mp, hp⟩ := ihp h3
    obtain ⟨m, hm⟩ := ihr h5
    obtain ⟨c, hc⟩ := mkNet_accepts_any (some n) mp (declared ls) hp.ok (declared_good h4.1) h4.2.1 (h4.2.2.2 mp hp.comps)
      (contiguous_differ h4.2.2.1)
    exact ⟨_, makes_net hp hm h4 h1 h2 hc⟩

/-- C138. Networks within networks, to any depth, may be written with named or assigned parts, with
`pt.link` or `nw.link`, one chain per call: the program raises nothing, leaves the networks that existed before
and the current network as they were, and the network it makes has exactly the buffers of the one that is made
with dictionaries. -/
theorem C138_with (ps : Parts) (calls : List LinkCall) (hok : ps.OK) (hf : Fits ps calls) (s : Site) :
    ∃ s' m o c, (Build.withNew none (fun x => .seq (ps.script x) (callsScript x calls)) fun _ => .skip).run s = (s', .ok ()) ∧
      s'.stack = s.stack ∧ (∀ y < s.objs.length, s'.objs[y]? = s.objs[y]?) ∧ s'.objs[s.objs.length]? = some o ∧
      o.buf = some c ∧ ps.comps = some m ∧ byDictionary none m (declared calls) = some c := by
  obtain ⟨m, hm⟩ := makes ps hok
  set k := s.objs.length with hkd
  let s1 : Site := { s with objs := s.objs ++ [⟨none, [], [], [], none⟩] }
  have hk0 : s1.objs[k]? = some ⟨none, [], [], [], none⟩ := by simp [s1, hkd]
  have hlen1 : s1.objs.length = k + 1 := by simp [s1, hkd]
  obtain ⟨s2, o2, c2, b1, b2, b3, b4, b5, b6, b7, b8⟩ := body_spec hm hf { s1 with stack := k :: s1.stack } k s1.stack none rfl hk0 hlen1
  refine ⟨{ s2 with stack := s1.stack }, m, o2, c2, ?_, rfl, fun y hy => (b4 y hy).trans (List.getElem?_append_left hy), b5, b7, hm.comps,
    (dict_spec hm hf b8).1⟩
  have hnew : s.newNet none = (s1, .ok ()) := rfl
  rw [Build.run, hnew]
  simp only [← hkd, b1]
  unfold Site.exit
  simp only [b2]
  rfl

end PT

namespace PT
open Spec

/-! ## Networks that change after they were used -/

/-- The full statement: whenever a program has run without an exception, all networks are up to date. -/
def C139_statement : Prop := ∀ (p : Build) (s : Site), p.run ⟨[], []⟩ = (s, .ok ()) → UpToDate s

/-- `with Network() as x:` a network `i` with one waveguide, linked; then a second waveguide is added to `i`. -/
def lateProg : Build :=
  .seq (.withNew none (fun _ =>
      .seq (.withNew (some ['i']) (fun _ =>
          .seq (.newComp ['a'] (passive 2)) (.linkHere [.int 0, .str "0:a:1".toList, .int 1])) fun _ => .skip)
        (.linkHere [.int 0, .str "0:i:1".toList, .int 1])) fun _ => .skip)
    (.withOld 1 (.seq (.newComp ['b'] (passive 2)) (.linkHere [.int 2, .str "0:b:1".toList, .int 3])))

/-- It fails: a network is not rebuilt when a network inside it is extended.  It keeps the buffers for two ports
while its part now has four. -/
theorem C139_violation : ¬ C139_statement := by
  intro H
  have h1 : (lateProg.run ⟨[], []⟩).2 = .ok () := by decide +kernel
  have h2 : ((lateProg.run ⟨[], []⟩).1.objs[0]?.map fun o =>
      (o.buf.map (·.n), ((mkNet o.name (nowParts (lateProg.run ⟨[], []⟩).1 o) o.conns).toOption).map (·.n))) =
    some (some 2, some 4) := by decide +kernel
  cases ho : (lateProg.run ⟨[], []⟩).1.objs[0]? with
  | none => rw [ho] at h2; cases h2
  | some o =>
    rw [ho] at h2
    simp only [Option.map_some, Option.some.injEq, Prod.mk.injEq] at h2
    obtain ⟨h3, h4⟩ := h2
    cases hb : o.buf with
    | none => rw [hb] at h3; cases h3
    | some c =>
      obtain ⟨c', hk, hs⟩ := H lateProg _ (Prod.ext rfl h1) 0 o c ho hb
      rw [hk] at h4
      rw [hb] at h3
      have hn : c'.n = c.n := by have := congrArg Comp.n hs; exact this
      simp only [Except.toOption, Option.map_some, Option.some.injEq] at h3 h4
      omega

/-- Renaming changes names only. -/
def unnamed (o : NetObj) : NetObj := { o with name := none }

theorem rename_objs (s : Site) (x : ℕ) (n : Str) (z : ℕ) :
    (s.rename x n).objs[z]?.map unnamed = s.objs[z]?.map unnamed := by
  unfold Site.rename
  split
  · rename_i y _
    cases hp : s.objs[y]? with
    | none => rfl
    | some p =>
      by_cases hz : z = y
      · subst hz
        simp only
        rw [put_get hp, hp]; rfl
      · simp only
        rw [put_other hz]
  · rfl

theorem renames_objs (x : ℕ) (l : List Str) : ∀ (s : Site) (z : ℕ),
    (l.foldl (fun s n => s.rename x n) s).objs[z]?.map unnamed = s.objs[z]?.map unnamed := by
  induction l with
  | nil => exact fun _ _ => rfl
  | cons n l ih => exact fun s z => (ih _ z).trans (rename_objs s x n z)

theorem comp_unnamed {s s' : Site} {y : ℕ} (h : s'.objs[y]?.map unnamed = s.objs[y]?.map unnamed) : s'.comp (.net y) = s.comp (.net y) := by
  unfold Site.comp
  simp only
  have := congrArg (fun o : Option NetObj => o.bind NetObj.buf) h
  simpa [Option.bind_map, Function.comp_def, unnamed] using this

theorem nowParts_eq {s s' : Site} {o o' : NetObj} (hi : o'.items = o.items)
    (h : ∀ p ∈ o.items, s'.comp p.2 = s.comp p.2) : nowParts s' o' = nowParts s o := by
  unfold nowParts
  rw [hi]
  exact List.filterMap_congr fun p hp => by rw [h p hp]

theorem mkNet_strip (name : Option Str) (m : Comps) (conns : List Str) :
    mkNet name m (conns.map stripConn) = mkNet name m conns := by
  unfold mkNet
  have : (conns.map stripConn).map stripConn = conns.map stripConn := by
    rw [List.map_map]; exact List.map_congr_left fun c _ => stripConn_stripConn c
  rw [this]

theorem mkNet_any_name {name : Option Str} (name' : Option Str) {m : Comps} {conns : List Str} {c : Comp} (h : mkNet name m conns = .ok c) :
    ∃ c', mkNet name' m conns = .ok c' ∧ SameComp c' c := by
  rw [mkNet_named name name', h]
  exact ⟨_, rfl, rfl⟩

/-- C139, what holds. If everything is up to date, it still is after a `link` on a network with parts that is not
itself a part of any network.
(Missing: a `link` on a network that is a part of another one, see `C139_violation`.) -/
theorem C139_link_partial (s s' : Site) (x : ℕ) (o : NetObj) (args : List LinkArg) (hu : UpToDate s) (ho : s.objs[x]? = some o)
    (hi : o.items ≠ []) (hx : ∀ (z : ℕ) (oz : NetObj), s.objs[z]? = some oz → ∀ p ∈ oz.items, p.2 ≠ Item.net x)
    (h : s.link x args = (s', .ok ())) : UpToDate s' := by
  unfold Site.link at h
  rw [ho] at h
  simp only at h
  cases hr : (linkConns args).2 with
  | error e => rw [hr] at h; simp only [Prod.mk.injEq, reduceCtorEq, and_false] at h
  | ok u =>
    rw [hr] at h
    simp only at h
    set o1 : NetObj := { o with conns := o.conns ++ (linkConns args).1 } with ho1
    set s1 := s.put x o1 with hs1
    have hx1 : s1.objs[x]? = some o1 := put_get ho o1
    have hz1 : ∀ z, z ≠ x → s1.objs[z]? = s.objs[z]? := fun z hz => put_other hz _
    unfold Site.rebuild at h
    rw [hx1] at h
    simp only at h
    by_cases hc : o1.conns = []
    · rw [if_pos hc] at h
      obtain ⟨h, -⟩ := Prod.mk.inj h
      have : o1 = o := by
        have hc' : o.conns = [] := (List.append_eq_nil_iff.mp hc).1
        have hl : (linkConns args).1 = [] := (List.append_eq_nil_iff.mp hc).2
        rw [ho1, hl, List.append_nil]
      have hs : s1 = s := by
        rw [hs1, this]
        unfold Site.put
        have : s.objs.set x o = s.objs := by
          apply List.ext_getElem?
          intro i
          rw [List.getElem?_set]
          split
          · rename_i e; subst e
            rw [if_pos (lt_of_get ho), ho]
          · rfl
        rw [this]
      rw [← h, hs]; exact hu
    · rw [if_neg hc, if_neg (show o1.items ≠ [] from hi)] at h
      set known := knownNames o1.items (usedNames (o1.conns.map stripConn)) with hkn
      set s2 := known.foldl (fun s n => s.rename x n) s1 with hs2
      have hren : ∀ z, s2.objs[z]?.map unnamed = s1.objs[z]?.map unnamed := renames_objs x known s1
      obtain ⟨o2, ho2, he2⟩ : ∃ o2, s2.objs[x]? = some o2 ∧ unnamed o2 = unnamed o1 := by
        have := hren x
        rw [hx1, Option.map_some, Option.map_eq_some_iff] at this
        exact this
      rw [ho2] at h
      simp only [Option.getD_some] at h
      have hi2 : o2.items = o1.items := by have := congrArg NetObj.items he2; exact this
      have hc2 : ∀ y, y ≠ x → s2.comp (.net y) = s.comp (.net y) := fun y hy => by
        rw [comp_unnamed (hren y)]
        unfold Site.comp
        simp only
        rw [hz1 y hy]
      split at h
      · simp only [Prod.mk.injEq, reduceCtorEq, and_false] at h
      · split at h
        · simp only [Prod.mk.injEq, reduceCtorEq, and_false] at h
        · split at h
          · rename_i c hk
            obtain ⟨h, -⟩ := Prod.mk.inj h
            subst h
            set o3 : NetObj := { o2 with used := known, conns := o1.conns.map stripConn, buf := some c } with ho3
            have hcomp : ∀ it, it ≠ Item.net x → (s2.put x o3).comp it = s2.comp it := by
              intro it hit
              cases it with
              | leaf d => rfl
              | net y =>
                unfold Site.comp
                simp only
                rw [put_other (fun e => hit (by rw [e]))]
            intro z oz cz hz hb
            by_cases hzx : z = x
            · subst hzx
              rw [put_get ho2] at hz
              cases hz
              have hcz : c = cz := Option.some.inj hb
              subst hcz
              refine ⟨c, ?_, rfl⟩
              have e : nowParts (s2.put z o3) o3 = nowParts s2 o2 := nowParts_eq rfl fun p hp => by
                refine hcomp p.2 (hx z o ho p ?_)
                rw [hi2] at hp; exact hp
              rw [e]
              show mkNet o2.name _ (o1.conns.map stripConn) = _
              rw [mkNet_strip]
              exact hk
            · rw [put_other hzx] at hz
              have := hren z
              rw [hz, hz1 z hzx, Option.map_some, eq_comm, Option.map_eq_some_iff] at this
              obtain ⟨oy, hoy, he⟩ := this
              have hitems : oz.items = oy.items := by have := congrArg NetObj.items he.symm; exact this
              have hbuf : oy.buf = some cz := by have := congrArg NetObj.buf he; exact this.trans hb
              have hconns : oz.conns = oy.conns := by have := congrArg NetObj.conns he.symm; exact this
              obtain ⟨c', hk', hs'⟩ := hu z oy cz hoy hbuf
              obtain ⟨c'', hk'', hs''⟩ := mkNet_any_name oz.name hk'
              refine ⟨c'', ?_, hs''.trans hs'⟩
              have e : nowParts (s2.put x o3) oz = nowParts s oy := nowParts_eq hitems fun p hp => by
                have hp' := hx z oy hoy p hp
                rw [hcomp _ hp']
                cases hit : p.2 with
                | leaf d => rfl
                | net y => exact hc2 y fun e => hp' (by rw [hit, e])
              rw [e, hconns]; exact hk''
          · simp only [Prod.mk.injEq, reduceCtorEq, and_false] at h

/-- The first `link` of a network with a waveguide. -/
example : (Site.link ⟨[⟨none, [(['a'], .leaf (passive 2))], [], [], none⟩], []⟩ 0 [.int 0, .str "0:a:1".toList, .int 1]).2 = .ok () ∧
    UpToDate ⟨[⟨none, [(['a'], .leaf (passive 2))], [], [], none⟩], []⟩ := by
  refine ⟨by decide +kernel, ?_⟩
  intro x o c ho hb
  cases x with
  | zero => cases ho; cases hb
  | succ x => simp at ho

/-! ## Networks under construction and the network states of C13 and C23 -/

theorem rename_self {s : Site} {x : ℕ} {o : NetObj} (n : Str) (ho : s.objs[x]? = some o) (hr : ∀ p ∈ o.items, p.2 ≠ Item.net x) :
    (s.rename x n).objs[x]? = some o := by
  unfold Site.rename
  rw [ho]
  simp only [Option.bind_some]
  cases hd : dictGet n o.items with
  | none => exact ho
  | some it =>
    cases it with
    | leaf c => exact ho
    | net y =>
      have hy : y ≠ x := fun e => hr _ (dictGet_mem' hd) (by rw [e])
      simp only
      cases hp : s.objs[y]? with
      | none => exact ho
      | some p =>
        simp only
        rw [put_other (Ne.symm hy)]; exact ho

theorem renames_self {x : ℕ} {o : NetObj} (hr : ∀ p ∈ o.items, p.2 ≠ Item.net x) (l : List Str) :
    ∀ s : Site, s.objs[x]? = some o → (l.foldl (fun s n => s.rename x n) s).objs[x]? = some o := by
  induction l with
  | nil => exact fun _ h => h
  | cons n l ih => exact fun s h => ih _ (rename_self n h hr)

theorem pickKnown_keys (m : Comps) (items : List (Str × Item)) (h : items.map Prod.fst = m.map Prod.fst) (l : List Str) :
    (pickKnown m l).map Prod.fst = knownNames items l := by
  induction l with
  | nil => rfl
  | cons n l ih =>
    have hk : dictGet n items = none ↔ dictGet n m = none := by rw [dictGet_none, dictGet_none, h]
    cases h1 : dictGet n m with
    | none =>
      rw [pickKnown, h1, knownNames, hk.mpr h1]
      simp
    | some c =>
      have h2 : (dictGet n items).isSome := by
        cases h3 : dictGet n items with
        | none => rw [hk.mp h3] at h1; cases h1
        | some _ => rfl
      rw [pickKnown, h1, knownNames, if_pos h2]
      simp [ih]

theorem knownNames_missing {items : List (Str × Item)} {l : List Str} (h : knownNames items l ≠ l) : ∃ n ∈ l, dictGet n items = none := by
  by_contra hcon
  push Not at hcon
  exact h (knownNames_all fun n hn => by
    by_contra hh
    exact hcon n hn (dictGet_none.mpr hh))

theorem nowParts_keys {s : Site} {o : NetObj} (h : ∀ p ∈ o.items, (s.comp p.2).isSome) :
    o.items.map Prod.fst = (nowParts s o).map Prod.fst := by
  unfold nowParts
  generalize o.items = its at h
  induction its with
  | nil => rfl
  | cons p its ih =>
    obtain ⟨c, hc⟩ := Option.isSome_iff_exists.mp (h p (by simp))
    rw [List.filterMap_cons, hc]
    simpa using ih fun q hq => h q (by simp [hq])

/-- What is known of a network object: a network state as in C13 and C23, with the parts as they are now. -/
def stateOf (cls : Str) (comps : Comps) (s : Site) (o : NetObj) : NetState := ⟨o.name, cls, nowParts s o, comps, o.conns, o.buf⟩

/-- C138. `link` on a network whose parts are linked (and that does not contain itself) does to its connections
and buffers what C13 and C23 say, and raises the same. -/
theorem C138_link (s : Site) (x : ℕ) (o : NetObj) (args : List LinkArg) (cls : Str) (comps : Comps) (ho : s.objs[x]? = some o)
    (hp : ∀ p ∈ o.items, p.2 ≠ Item.net x ∧ (s.comp p.2).isSome) (hu : o.used = comps.map Prod.fst) :
    ∃ s' o', s.link x args = (s', (link (stateOf cls comps s o) args).2) ∧ s'.objs[x]? = some o' ∧ s'.stack = s.stack ∧
      o'.name = o.name ∧ o'.items = o.items ∧ o'.conns = (link (stateOf cls comps s o) args).1.conns ∧
      o'.buf = (link (stateOf cls comps s o) args).1.buf ∧ o'.used = (link (stateOf cls comps s o) args).1.comps.map Prod.fst := by
  have hkeys := nowParts_keys fun p h => (hp p h).2
  unfold Site.link link
  rw [ho]
  simp only
  set o1 : NetObj := { o with conns := o.conns ++ (linkConns args).1 } with ho1
  set s1 := s.put x o1 with hs1
  have hx1 : s1.objs[x]? = some o1 := put_get ho o1
  cases hr : (linkConns args).2 with
  | error e =>
    simp only
    exact ⟨s1, o1, rfl, hx1, rfl, rfl, rfl, rfl, rfl, hu⟩
  | ok u =>
    simp only
    have hnow1 : nowParts s1 o1 = nowParts s o := nowParts_eq rfl fun p h => by
      cases hit : p.2 with
      | leaf c => rfl
      | net y =>
        unfold Site.comp
        simp only
        rw [put_other fun e => (hp p h).1 (by rw [hit, e])]
    have hsc : (stateOf cls comps s o).conns = o.conns := rfl
    rw [hsc]
    obtain ⟨st, hst⟩ : ∃ st : NetState, st = { stateOf cls comps s o with conns := o.conns ++ (linkConns args).1 } := ⟨_, rfl⟩
    have t1 : st.name = o.name := by rw [hst]; rfl
    have t2 : st.modules = nowParts s o := by rw [hst]; rfl
    have t3 : st.comps = comps := by rw [hst]; rfl
    have t4 : st.conns = o1.conns := by rw [hst]
    have t5 : st.buf = o.buf := by rw [hst]; rfl
    rw [← hst]
    clear hst
    unfold Site.rebuild netSetBuffers
    rw [hx1]
    simp only
    by_cases hc : o1.conns = []
    · rw [if_pos hc, if_pos (t4.trans hc)]
      exact ⟨s1, o1, rfl, hx1, rfl, rfl, rfl, t4.symm, t5.symm, by rw [t3]; exact hu⟩
    · have hc' : st.conns ≠ [] := by rw [t4]; exact hc
      rw [if_neg hc, if_neg hc']
      by_cases hi : o.items = []
      · have hm : nowParts s o = [] := by unfold nowParts; rw [hi]; rfl
        rw [if_pos (show o1.items = [] from hi), if_pos (t2.trans hm)]
        exact ⟨s1, o1, rfl, hx1, rfl, rfl, rfl, t4.symm, t5.symm, by rw [t3]; exact hu⟩
      · have hm : nowParts s o ≠ [] := by
          intro e
          rw [e] at hkeys
          exact hi (by simpa using hkeys)
        have hm' : st.modules ≠ [] := by rw [t2]; exact hm
        rw [if_neg (show o1.items ≠ [] from hi), if_neg hm', t1, t2, t4]
        have hits : o1.items = o.items := rfl
        have hnm : o1.name = o.name := rfl
        set known := knownNames o1.items (usedNames (o1.conns.map stripConn)) with hkn
        set s2 := known.foldl (fun s n => s.rename x n) s1 with hs2
        have hx2 : s2.objs[x]? = some o1 := renames_self (o := o1) (fun p h => (hp p h).1) known s1 hx1
        have hst2 : s2.stack = s1.stack := by
          rw [hs2]
          have : ∀ (l : List Str) (t : Site), (l.foldl (fun s n => s.rename x n) t).stack = t.stack := by
            intro l
            induction l with
            | nil => exact fun _ => rfl
            | cons n l ih =>
              intro t
              rw [List.foldl_cons, ih]
              unfold Site.rename
              split
              · split <;> rfl
              · rfl
          exact this known s1
        have hnow2 : nowParts s2 o1 = nowParts s o := by
          rw [← hnow1]
          refine nowParts_eq rfl fun p _ => ?_
          cases hit : p.2 with
          | leaf c => rfl
          | net y => exact comp_unnamed (renames_objs x known s1 y)
        have hmods : o1.items.filterMap (fun p => (s2.comp p.2).map fun c => (p.1, c)) = nowParts s o := hnow2
        have hused : known = (pickKnown (nowParts s o) (usedNames (o1.conns.map stripConn))).map Prod.fst :=
          (pickKnown_keys _ _ hkeys _).symm
        rw [hx2]
        simp only [Option.getD_some, hmods]
        by_cases hk : known = usedNames (o1.conns.map stripConn)
        · rw [if_neg (by simpa using hk), if_neg (by
            rintro ⟨n, hn, hno⟩
            rw [← hk] at hn
            rw [hused] at hn
            obtain ⟨q, hq, rfl⟩ := List.mem_map.mp hn
            have : ∀ (l : List Str), ∀ q ∈ pickKnown (nowParts s o) l, q.1 ∈ (nowParts s o).map Prod.fst := by
              intro l
              induction l with
              | nil => intro q hq; cases hq
              | cons a l ih =>
                intro q hq
                rw [pickKnown] at hq
                cases hg : dictGet a (nowParts s o) with
                | none => rw [hg] at hq; cases hq
                | some d =>
                  rw [hg] at hq
                  rcases List.mem_cons.mp hq with rfl | hq
                  · exact List.mem_map.mpr ⟨_, dictGet_mem' hg, rfl⟩
                  · exact ih q hq
            exact hno (this _ q hq)), hnm]
          cases hmk : mkNet o.name (nowParts s o) o1.conns with
          | ok c => exact ⟨_, _, rfl, put_get hx2 _, hst2, rfl, rfl, rfl, rfl, hused⟩
          | error e => exact ⟨_, _, rfl, put_get hx2 _, hst2, rfl, rfl, rfl, rfl, hused⟩
        · rw [if_pos hk]
          have hmk : mkNet o.name (nowParts s o) o1.conns = .error .keyError := by
            obtain ⟨n, hn, hno⟩ := knownNames_missing hk
            unfold mkNet
            have : pickComps (nowParts s o) (usedNames (o1.conns.map stripConn)) = .error .keyError := by
              have hno' : dictGet n (nowParts s o) = none := by
                rw [dictGet_none, ← hkeys, ← dictGet_none]; exact hno
              cases hpk : pickComps (nowParts s o) (usedNames (o1.conns.map stripConn)) with
              | ok l =>
                obtain ⟨h1, h2⟩ := pickComps_ok hpk
                rw [← h1] at hn
                obtain ⟨q, hq, rfl⟩ := List.mem_map.mp hn
                obtain ⟨d, hd, -⟩ := h2 q hq
                rw [hno'] at hd; cases hd
              | error e =>
                unfold pickComps at hpk
                obtain ⟨a, -, ha⟩ := mapE_error hpk
                cases hg : dictGet a (nowParts s o) with
                | none => rw [hg] at ha; cases ha; rfl
                | some d => rw [hg] at ha; cases ha
            rw [this]; rfl
          rw [hmk]
          exact ⟨_, _, rfl, put_get hx2 _, hst2, rfl, rfl, rfl, rfl, hused⟩

/-- C138. Adding a part raises what `add_component` raises (C12), and otherwise stores it. -/
theorem C138_add (s : Site) (x : ℕ) (o : NetObj) (n : Str) (it : Item) (c : Comp) (cls : Str) (comps : Comps) (ho : s.objs[x]? = some o)
    (hu : o.used = comps.map Prod.fst) :
    (s.add x n it).2 = (addComponent (stateOf cls comps s o) n { c with name := s.nameOf it }).2 ∧
      (s.add x n it).1 = match (s.add x n it).2 with
        | .ok _ => s.put x { o with items := dictSet n it o.items }
        | .error _ => s := by
  unfold Site.add addComponent
  rw [ho]
  simp only [hu, stateOf]
  by_cases h1 : n ∈ comps.map Prod.fst
  · simp only [h1, if_true, and_self]
  · by_cases h2 : s.nameOf it ≠ none ∧ s.nameOf it ≠ some n
    · simp only [h1, if_false, if_pos h2, and_self]
    · by_cases h3 : n = [] ∨ '.' ∈ n
      · simp only [h1, if_false, if_neg h2, if_pos h3, and_self]
      · simp only [h1, if_false, if_neg h2, if_neg h3, and_self]

/-- C138. What cannot be linked: outside of all with-blocks, `pt.link` has no network; and a network inside that
has no connections itself yet cannot be used. -/
theorem C138_refused (s : Site) :
    (s.stack = [] → ∀ args, (Build.linkHere args).run s = (s, .error .attributeError)) ∧
    (∀ x o args n y, s.objs[x]? = some o → (∀ p ∈ o.items, p.2 ≠ Item.net x) → (linkConns args).2 = .ok () →
      dictGet n o.items = some (.net y) → s.comp (.net y) = none → (o.items.map Prod.fst).Nodup →
      n ∈ usedNames ((o.conns ++ (linkConns args).1).map stripConn) →
      (∀ a ∈ usedNames ((o.conns ++ (linkConns args).1).map stripConn), a ∈ o.items.map Prod.fst) →
      (s.link x args).2 = .error .attributeError) := by
  refine ⟨fun h args => ?_, ?_⟩
  · rw [Build.run]
    unfold Site.linkHere
    rw [h]
  · intro x o args n y ho hself hl hn hy hnd hmem hall
    unfold Site.link
    rw [ho]
    simp only [hl]
    set o1 : NetObj := { o with conns := o.conns ++ (linkConns args).1 } with ho1
    set s1 := s.put x o1 with hs1
    have hx1 : s1.objs[x]? = some o1 := put_get ho o1
    have hyx : y ≠ x := fun e => hself _ (dictGet_mem' hn) (by rw [e])
    unfold Site.rebuild
    rw [hx1]
    simp only
    have hc : o1.conns ≠ [] := by
      intro e
      have e' : o.conns ++ (linkConns args).1 = [] := e
      rw [e'] at hmem
      cases hmem
    have hi : o1.items ≠ [] := fun e => by
      have e' : o.items = [] := e
      rw [e'] at hn; cases hn
    rw [if_neg hc, if_neg hi]
    have hknown : knownNames o1.items (usedNames (o1.conns.map stripConn)) = usedNames (o1.conns.map stripConn) := knownNames_all hall
    rw [hknown]
    set names := usedNames (o1.conns.map stripConn) with hnames
    set s2 := names.foldl (fun s n => s.rename x n) s1 with hs2
    have hx2 : s2.objs[x]? = some o1 := renames_self (o := o1) hself names s1 hx1
    rw [hx2]
    simp only [Option.getD_some]
    rw [if_neg (by simp), if_pos]
    refine ⟨n, hmem, ?_⟩
    intro hin
    obtain ⟨q, hq, hqn⟩ := List.mem_map.mp hin
    obtain ⟨p, hp, hpq⟩ := List.mem_filterMap.mp hq
    obtain ⟨c, hc2, rfl⟩ := Option.map_eq_some_iff.mp hpq
    have : p = (n, .net y) := by
      have h1 : (n, Item.net y) ∈ o.items := dictGet_mem' hn
      have h2 : p.1 = n := hqn
      exact List.inj_on_of_nodup_map hnd hp h1 h2
    subst this
    have : s2.comp (.net y) = none := by
      rw [comp_unnamed (renames_objs x names s1 y)]
      unfold Site.comp at hy ⊢
      simp only at hy ⊢
      rw [put_other hyx]; exact hy
    rw [this] at hc2
    cases hc2

theorem rename_other {s : Site} {x y : ℕ} {o : NetObj} {n a : Str} (ho : s.objs[x]? = some o)
    (huniq : ∀ p ∈ o.items, p.2 = Item.net y → p.1 = n) (ha : a ≠ n) : (s.rename x a).objs[y]? = s.objs[y]? := by
  unfold Site.rename
  rw [ho]
  simp only [Option.bind_some]
  cases hd : dictGet a o.items with
  | none => rfl
  | some it =>
    cases it with
    | leaf c => rfl
    | net z =>
      have hz : y ≠ z := fun e => ha (huniq _ (dictGet_mem' hd) (by rw [e]))
      simp only
      cases hp : s.objs[z]? with
      | none => rfl
      | some p =>
        simp only
        rw [put_other hz]

theorem rename_this {s : Site} {x y : ℕ} {o p : NetObj} {n : Str} (ho : s.objs[x]? = some o) (hn : dictGet n o.items = some (.net y))
    (hp : s.objs[y]? = some p) : (s.rename x n).objs[y]? = some { p with name := some n } := by
  unfold Site.rename
  rw [ho]
  simp only [Option.bind_some, hn, hp]
  exact put_get hp _

theorem renames_name {x y : ℕ} {o : NetObj} {n : Str} (hself : ∀ p ∈ o.items, p.2 ≠ Item.net x) (hn : dictGet n o.items = some (.net y))
    (huniq : ∀ p ∈ o.items, p.2 = Item.net y → p.1 = n) (l : List Str) : ∀ (s : Site) (p : NetObj), s.objs[x]? = some o → s.objs[y]? = some p →
      (n ∈ l ∨ p.name = some n) → ∃ q, (l.foldl (fun s n => s.rename x n) s).objs[y]? = some q ∧ q.name = some n := by
  induction l with
  | nil =>
    intro s p _ hp h
    rcases h with h | h
    · cases h
    · exact ⟨p, hp, h⟩
  | cons a l ih =>
    intro s p ho hp h
    rw [List.foldl_cons]
    by_cases ha : a = n
    · subst ha
      exact ih _ _ (rename_self a ho hself) (rename_this ho hn hp) (.inr rfl)
    · refine ih _ p (rename_self a ho hself) ((rename_other ho huniq ha).trans hp) ?_
      rcases h with h | h
      · rcases List.mem_cons.mp h with h | h
        · exact absurd h.symm ha
        · exact .inl h
      · exact .inr h

/-- C138. A network that was linked as the part `n` of another one bears this name: it cannot be added to any
network under another name, unless it is in use there already. -/
theorem C138_named (s s' : Site) (x y : ℕ) (o p : NetObj) (n : Str) (args : List LinkArg) (ho : s.objs[x]? = some o)
    (hself : ∀ q ∈ o.items, q.2 ≠ Item.net x) (hn : dictGet n o.items = some (.net y)) (hp : s.objs[y]? = some p)
    (huniq : ∀ q ∈ o.items, q.2 = Item.net y → q.1 = n) (h : s.link x args = (s', .ok ()))
    (hused : n ∈ usedNames ((o.conns ++ (linkConns args).1).map stripConn)) :
    ∀ z oz n', s'.objs[z]? = some oz → n' ≠ n → n' ∉ oz.used → (s'.add z n' (.net y)) = (s', .error .valueError) := by
  have hyx : y ≠ x := fun e => hself _ (dictGet_mem' hn) (by rw [e])
  have key : s'.nameOf (.net y) = some n := by
    unfold Site.link at h
    rw [ho] at h
    simp only at h
    cases hr : (linkConns args).2 with
    | error e => rw [hr] at h; simp only [Prod.mk.injEq, reduceCtorEq, and_false] at h
    | ok u =>
      rw [hr] at h
      simp only at h
      set o1 : NetObj := { o with conns := o.conns ++ (linkConns args).1 } with ho1
      set s1 := s.put x o1 with hs1
      have hx1 : s1.objs[x]? = some o1 := put_get ho o1
      have hy1 : s1.objs[y]? = some p := (put_other hyx _).trans hp
      unfold Site.rebuild at h
      rw [hx1] at h
      simp only at h
      have hc : o1.conns ≠ [] := by
        intro e
        have e' : o.conns ++ (linkConns args).1 = [] := e
        rw [e'] at hused
        cases hused
      have hi : o1.items ≠ [] := fun e => by
        have e' : o.items = [] := e
        rw [e'] at hn; cases hn
      rw [if_neg hc, if_neg hi] at h
      set known := knownNames o1.items (usedNames (o1.conns.map stripConn)) with hkn
      set s2 := known.foldl (fun s n => s.rename x n) s1 with hs2
      by_cases hk : known = usedNames (o1.conns.map stripConn)
      · obtain ⟨q, hq, hqn⟩ := renames_name (o := o1) hself hn huniq known s1 p hx1 hy1 (.inl (by rw [hk]; exact hused))
        split at h
        · simp only [Prod.mk.injEq, reduceCtorEq, and_false] at h
        · split at h
          · simp only [Prod.mk.injEq, reduceCtorEq, and_false] at h
          · split at h
            · obtain ⟨h, -⟩ := Prod.mk.inj h
              rw [← h]
              unfold Site.nameOf
              simp only
              rw [put_other hyx, hq]
              exact hqn
            · simp only [Prod.mk.injEq, reduceCtorEq, and_false] at h
      · rw [if_pos hk] at h
        simp only [Prod.mk.injEq, reduceCtorEq, and_false] at h
  intro z oz n' hz hne hu
  unfold Site.add
  rw [hz]
  simp only
  rw [if_neg hu, if_pos]
  rw [key]
  exact ⟨by simp, by simpa using Ne.symm hne⟩

/-! ## Examples -/

/-- A ring and a waveguide behind it. -/
def planCall : LinkCall := ⟨some 0, [⟨some 0, ['d'], some 2⟩, ⟨some 0, ['w'], some 1⟩, ⟨some 3, ['d'], some 1⟩], some 1,
  [.int 0], [.str (intStr 1)], true⟩
def planCalls : List LinkCall := [⟨some 0, [⟨some 0, ['r'], some 1⟩, ⟨some 0, ['v'], none⟩], none, [.int 0], [], false⟩,
  ⟨none, [⟨none, ['v'], some 1⟩], some 1, [], [.int 1], true⟩]
def planRing : Parts := .leaf ['d'] true (passive 4) (.leaf ['w'] false (passive 2) .nil)
def planParts : Parts := .net ['r'] false planRing [planCall] (.leaf ['v'] true (passive 2) .nil)

theorem planCall_ok : planCall.OK := by
  refine ⟨.inl rfl, .inr rfl, by simp [planCall], ?_, by simp [planCall], by simp [planCall], by simp [planCall], by simp [planCall],
    by simp [planCall]⟩
  intro e he
  simp only [planCall, List.mem_cons, List.not_mem_nil, or_false] at he
  rcases he with rfl | rfl | rfl <;> exact goodName_dec (by decide)

theorem attrName_dec {x : Str} (h : (decide (':' ∉ x) && decide (strip x = x) && decide (pyInt x = none)) = true) (h1 : x ≠ []) (h2 : '.' ∉ x) :
    AttrName x := ⟨goodName_dec h, h1, h2⟩

/-- The ports of dictionaries. -/
theorem hasPort_of {m : Comps} {x : Str} {i : ℤ} (k : ℕ) (h : (dictGet x m).map (fun d => (freePorts d).length) = some k) (h0 : 0 ≤ i) (hk : i < k) :
    HasPort m x i := by
  cases hd : dictGet x m with
  | none => rw [hd] at h; cases h
  | some d =>
    rw [hd] at h
    simp only [Option.map_some, Option.some.injEq] at h
    exact ⟨d, hd, h0, by omega⟩

example : planParts.OK ∧ Fits planParts planCalls := by
  have h2 : Built (passive 2) := passive_built 2 (by decide +kernel)
  have h4 : Built (passive 4) := passive_built 4 (by decide +kernel)
  have hr : Fits planRing [planCall] := by
    refine ⟨by simpa using planCall_ok, by decide, ⟨by decide, by decide, by decide⟩, ?_⟩
    intro m hm
    have : m = [(['d'], { passive 4 with name := some ['d'] }), (['w'], { passive 2 with name := some ['w'] })] := (Option.some.inj hm).symm
    subst this
    intro c hc
    have hc' : c ∈ ([.inner ['d'] 2 ['w'] 0, .inner ['w'] 1 ['d'] 3, .outer ['d'] 0 0, .outer ['d'] 1 1] : List Conn) := hc
    simp only [List.mem_cons, List.not_mem_nil, or_false] at hc'
    have hd : ∀ i : ℤ, 0 ≤ i → i < 4 → HasPort [(['d'], { passive 4 with name := some ['d'] }), (['w'], { passive 2 with name := some ['w'] })] ['d'] i :=
      fun i h h' => hasPort_of 4 (by decide +kernel) h (by omega)
    have hw : ∀ i : ℤ, 0 ≤ i → i < 2 → HasPort [(['d'], { passive 4 with name := some ['d'] }), (['w'], { passive 2 with name := some ['w'] })] ['w'] i :=
      fun i h h' => hasPort_of 2 (by decide +kernel) h (by omega)
    rcases hc' with rfl | rfl | rfl | rfl
    · exact ⟨hd 2 (by omega) (by omega), hw 0 (by omega) (by omega), by simp⟩
    · exact ⟨hw 1 (by omega) (by omega), hd 3 (by omega) (by omega), by simp⟩
    · exact hd 0 (by omega) (by omega)
    · exact hd 1 (by omega) (by omega)
  refine ⟨⟨attrName_dec (by decide) (by decide) (by decide), by decide, ⟨attrName_dec (by decide) (by decide) (by decide), by decide, h4,
      passive_order 4, attrName_dec (by decide) (by decide) (by decide), by decide, h2, passive_order 2, trivial⟩, hr,
    attrName_dec (by decide) (by decide) (by decide), by decide, h2, passive_order 2, trivial⟩, ?_, by decide, ⟨by decide, by decide, by decide⟩, ?_⟩
  · intro l hl
    simp only [planCalls, List.mem_cons, List.not_mem_nil, or_false] at hl
    rcases hl with rfl | rfl
    · refine ⟨.inl rfl, .inl rfl, by simp, ?_, by simp, by simp, by simp, by simp, by simp⟩
      intro e he
      simp only [List.mem_cons, List.not_mem_nil, or_false] at he
      rcases he with rfl | rfl <;> exact goodName_dec (by decide)
    · refine ⟨.inl rfl, .inl rfl, by simp, ?_, by simp, by simp, by simp, by simp, by simp⟩
      intro e he
      simp only [List.mem_cons, List.not_mem_nil, or_false] at he
      subst he; exact goodName_dec (by decide)
  · intro m hm
    have key : (planParts.comps.map fun m => ((dictGet ['r'] m).map fun d => (freePorts d).length,
        (dictGet ['v'] m).map fun d => (freePorts d).length)) = some (some 2, some 2) := by decide +kernel
    rw [hm] at key
    simp only [Option.map_some, Option.some.injEq, Prod.mk.injEq] at key
    have hd : ∀ i : ℤ, 0 ≤ i → i < 2 → HasPort m ['r'] i := fun i h h' => hasPort_of 2 key.1 h (by omega)
    have hw : ∀ i : ℤ, 0 ≤ i → i < 2 → HasPort m ['v'] i := fun i h h' => hasPort_of 2 key.2 h (by omega)
    intro c hc
    have hc' : c ∈ ([.inner ['r'] 1 ['v'] 0, .outer ['r'] 0 0, .outer ['v'] 1 1] : List Conn) := hc
    simp only [List.mem_cons, List.not_mem_nil, or_false] at hc'
    rcases hc' with rfl | rfl | rfl
    · exact ⟨hd 1 (by omega) (by omega), hw 0 (by omega) (by omega), by simp⟩
    · exact hd 0 (by omega) (by omega)
    · exact hw 1 (by omega) (by omega)

/-- The program of this plan, run from nothing. -/
example : ((Build.withNew none (fun x => .seq (planParts.script x) (callsScript x planCalls)) fun _ => .skip).run ⟨[], []⟩).2 = .ok () := by
  decide +kernel

/-- Outside of any with-block, `pt.link` has no network. -/
example : (Build.linkHere [.int 0, .str "0:a:1".toList, .int 1]).run ⟨[], []⟩ = (⟨[], []⟩, .error .attributeError) := rfl

/-- A network with a waveguide and a linked network inside. -/
example : ∀ p ∈ [(['a'], Item.leaf (passive 2)), (['i'], .net 1)], p.2 ≠ Item.net 0 ∧
    (Site.comp ⟨[⟨none, [(['a'], .leaf (passive 2)), (['i'], .net 1)], [], [], none⟩, ⟨none, [], [], [], some (passive 2)⟩], []⟩ p.2).isSome := by
  intro p hp
  simp only [List.mem_cons, List.not_mem_nil, or_false] at hp
  rcases hp with rfl | rfl
  · exact ⟨by simp, rfl⟩
  · exact ⟨by simp, rfl⟩

/-- The same with a network that is not linked yet. -/
example : (Site.link ⟨[⟨none, [(['a'], .leaf (passive 2)), (['i'], .net 1)], [], [], none⟩, ⟨none, [], [], [], none⟩], []⟩ 0
    [.int 0, .str "0:a:1".toList, .str "0:i:1".toList, .int 1]).2 = .error .attributeError := by decide +kernel

/-- A name in use. -/
example : (Site.add ⟨[⟨none, [(['a'], .leaf (passive 2))], [['a']], [], none⟩], []⟩ 0 ['a'] (.leaf (passive 2))).2 = .error .attributeError := by
  decide +kernel

/-- A linked network under another name. -/
example : (Build.run (.seq (.linkOf 0 [.int 0, .str "0:i:1".toList, .int 1]) (.attr 2 ['j'] (.net 1)))
    ⟨[⟨none, [(['i'], .net 1)], [], [], none⟩, ⟨none, [], [], [], some (passive 2)⟩, ⟨none, [], [], [], none⟩], []⟩).2 = .error .valueError := by
  decide +kernel

end PT
