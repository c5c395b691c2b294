import Verif.Proof.Build
import Verif.Spec.Build
import Verif.Props.Link
import Verif.Props.Terminate

/-! Proof support: networks under construction. -/

namespace PT
open Spec

theorem Spec.SameComp.named {c d : Comp} (h : SameComp c d) (x : Option Str) :
    ({ c with name := x } : Comp) = { d with name := x } := by
  have := congrArg (fun e : Comp => ({ e with name := x } : Comp)) h
  exact this

theorem Spec.SameComp.refl (c : Comp) : SameComp c c := rfl

theorem Spec.SameComp.symm {c d : Comp} (h : SameComp c d) : SameComp d c := Eq.symm h

theorem Spec.SameComp.trans {c d e : Comp} (h : SameComp c d) (h' : SameComp d e) : SameComp c e := Eq.trans h h'

theorem dictGet_same {m m' : Comps} (h : List.Forall₂ (fun p q => p.1 = q.1 ∧ SameComp p.2 q.2) m m') (x : Str) :
    (dictGet x m).map (fun c => ({ c with name := some x } : Comp)) =
      (dictGet x m').map fun c => ({ c with name := some x } : Comp) := by
  induction h with
  | nil => rfl
  | @cons p q m m' h _ ih =>
    obtain ⟨a, c⟩ := p
    obtain ⟨b, d⟩ := q
    obtain ⟨h1, h2⟩ := h
    simp only at h1 h2
    subst h1
    simp only [dictGet]
    split
    · simp only [Option.map_some, h2.named]
    · exact ih

theorem mkNet_same {m m' : Comps} (h : List.Forall₂ (fun p q => p.1 = q.1 ∧ SameComp p.2 q.2) m m')
    (name : Option Str) (conns : List Str) : mkNet name m conns = mkNet name m' conns := by
  unfold mkNet
  congr 1
  unfold pickComps
  congr 1
  funext x
  have := dictGet_same h x
  cases h1 : dictGet x m <;> cases h2 : dictGet x m' <;> rw [h1, h2] at this <;> simp_all

theorem mkNet_named (name name' : Option Str) (m : Comps) (conns : List Str) :
    mkNet name' m conns = (mkNet name m conns).map fun c => { c with name := name' } := by
  unfold mkNet
  cases pickComps m (usedNames (conns.map stripConn)) with
  | error e => rfl
  | ok l =>
    simp only [Except.bind]
    unfold netBuffers
    cases setPortOrder l (conns.map stripConn) with
    | error e => rfl
    | ok po =>
      simp only [Except.bind]
      cases setC l (conns.map stripConn) with
      | error e => rfl
      | ok C =>
        simp only [Except.bind]
        have : Comp.check ⟨name', l.numPorts, C, po, l.flatMap (·.2.src), l.flatMap (·.2.det), l.flatMap (·.2.act), true⟩ =
          Comp.check ⟨name, l.numPorts, C, po, l.flatMap (·.2.src), l.flatMap (·.2.det), l.flatMap (·.2.act), true⟩ := rfl
        rw [this]
        cases Comp.check ⟨name, l.numPorts, C, po, l.flatMap (·.2.src), l.flatMap (·.2.det), l.flatMap (·.2.act), true⟩ <;> rfl

/-- A network object that holds the given components. -/
structure HasParts (s : Site) (x : ℕ) (o : NetObj) (m : Comps) : Prop where
  obj : s.objs[x]? = some o
  items : List.Forall₂ (fun p q => p.1 = q.1 ∧ (∃ c, s.comp p.2 = some c ∧ SameComp c q.2) ∧
    ∀ y, p.2 = Item.net y → x < y) o.items m

theorem HasParts.refs {s : Site} {x : ℕ} {o : NetObj} {m : Comps} (h : HasParts s x o m) :
    ∀ p ∈ o.items, ∀ y, p.2 = Item.net y → x < y := by
  have := h.items
  clear h
  generalize o.items = its at this
  induction this with
  | nil => simp
  | cons h1 _ ih =>
    intro p hp
    rcases List.mem_cons.mp hp with rfl | hp
    · exact h1.2.2
    · exact ih p hp

theorem HasParts.names {s : Site} {x : ℕ} {o : NetObj} {m : Comps} (h : HasParts s x o m) :
    o.items.map Prod.fst = m.map Prod.fst := by
  have := h.items
  clear h
  generalize o.items = its at this
  induction this with
  | nil => rfl
  | cons h1 _ ih => simp [h1.1, ih]

/-- The components survive whatever leaves the buffers of the parts alone. -/
theorem HasParts.move {s s' : Site} {x : ℕ} {o o' : NetObj} {m : Comps} (h : HasParts s x o m) (ho : s'.objs[x]? = some o')
    (hi : o'.items = o.items) (hc : ∀ y c, x < y → s.comp (.net y) = some c → s'.comp (.net y) = some c) :
    HasParts s' x o' m := by
  refine ⟨ho, ?_⟩
  rw [hi]
  refine h.items.imp ?_
  rintro ⟨n, it⟩ q ⟨h1, ⟨c, h2, h3⟩, h4⟩
  refine ⟨h1, ⟨c, ?_, h3⟩, h4⟩
  cases it with
  | leaf d => exact h2
  | net y => exact hc y c (h4 y rfl) h2

theorem dictGet_mem' {κ β : Type} [DecidableEq κ] {k : κ} {v : β} {l : List (κ × β)} (h : dictGet k l = some v) : (k, v) ∈ l := by
  induction l with
  | nil => cases h
  | cons p l ih =>
    obtain ⟨a, b⟩ := p
    simp only [dictGet] at h
    split at h
    · rename_i e; subst e; cases h; simp
    · exact List.mem_cons_of_mem _ (ih h)

theorem rename_spec {s : Site} {x : ℕ} {o : NetObj} (n : Str) (ho : s.objs[x]? = some o)
    (hr : ∀ p ∈ o.items, ∀ y, p.2 = Item.net y → x < y) :
    (s.rename x n).stack = s.stack ∧ (s.rename x n).objs.length = s.objs.length ∧
      (∀ it, (s.rename x n).comp it = s.comp it) ∧ ∀ z ≤ x, (s.rename x n).objs[z]? = s.objs[z]? := by
  unfold Site.rename
  rw [ho]
  simp only [Option.bind_some]
  cases hd : dictGet n o.items with
  | none => exact ⟨rfl, rfl, fun _ => rfl, fun _ _ => rfl⟩
  | some it =>
    cases it with
    | leaf c => exact ⟨rfl, rfl, fun _ => rfl, fun _ _ => rfl⟩
    | net y =>
      have hy := hr _ (dictGet_mem' hd) y rfl
      simp only
      cases hp : s.objs[y]? with
      | none => exact ⟨rfl, rfl, fun _ => rfl, fun _ _ => rfl⟩
      | some p =>
        refine ⟨rfl, by simp [Site.put], ?_, ?_⟩
        · intro it
          cases it with
          | leaf c => rfl
          | net z =>
            unfold Site.comp Site.put
            simp only [List.getElem?_set]
            split
            · rename_i e; subst e
              have hlt : y < s.objs.length := by
                by_contra hh
                rw [List.getElem?_eq_none (by omega)] at hp; cases hp
              rw [if_pos hlt, hp]; rfl
            · rfl
        · intro z hz
          unfold Site.put
          simp only [List.getElem?_set]
          rw [if_neg (by omega)]

theorem renames_spec {x : ℕ} {o : NetObj} (hr : ∀ p ∈ o.items, ∀ y, p.2 = Item.net y → x < y) (l : List Str) :
    ∀ s : Site, s.objs[x]? = some o →
    (l.foldl (fun s n => s.rename x n) s).stack = s.stack ∧
      (l.foldl (fun s n => s.rename x n) s).objs.length = s.objs.length ∧
      (∀ it, (l.foldl (fun s n => s.rename x n) s).comp it = s.comp it) ∧
      ∀ z ≤ x, (l.foldl (fun s n => s.rename x n) s).objs[z]? = s.objs[z]? := by
  induction l with
  | nil => exact fun s _ => ⟨rfl, rfl, fun _ => rfl, fun _ _ => rfl⟩
  | cons n l ih =>
    intro s ho
    obtain ⟨a1, a2, a3, a4⟩ := rename_spec n ho hr
    obtain ⟨b1, b2, b3, b4⟩ := ih (s.rename x n) ((a4 x le_rfl).trans ho)
    exact ⟨b1.trans a1, b2.trans a2, fun it => (b3 it).trans (a3 it), fun z hz => (b4 z hz).trans (a4 z hz)⟩

theorem knownNames_all {items : List (Str × Item)} {l : List Str} (h : ∀ n ∈ l, n ∈ items.map Prod.fst) :
    knownNames items l = l := by
  induction l with
  | nil => rfl
  | cons n l ih =>
    have : (dictGet n items).isSome := by
      by_contra hh
      rw [Bool.not_eq_true, Option.isSome_eq_false_iff, Option.isNone_iff_eq_none] at hh
      exact (dictGet_none.mp hh) (h n (by simp))
    rw [knownNames, if_pos this, ih fun m hm => h m (by simp [hm])]

theorem mkNet_uses {name : Option Str} {m : Comps} {conns : List Str} {c : Comp} (h : mkNet name m conns = .ok c) :
    ∀ n ∈ usedNames (conns.map stripConn), n ∈ m.map Prod.fst := by
  unfold mkNet at h
  cases hp : pickComps m (usedNames (conns.map stripConn)) with
  | error e => rw [hp] at h; cases h
  | ok l =>
    obtain ⟨h1, h2⟩ := pickComps_ok hp
    intro n hn
    rw [← h1] at hn
    obtain ⟨p, hp', rfl⟩ := List.mem_map.mp hn
    obtain ⟨d, hd, -⟩ := h2 p hp'
    exact List.mem_map.mpr ⟨_, dictGet_mem' hd, rfl⟩

theorem HasParts.modules {s : Site} {x : ℕ} {o : NetObj} {m : Comps} (h : HasParts s x o m) :
    List.Forall₂ (fun p q => p.1 = q.1 ∧ SameComp p.2 q.2)
      (o.items.filterMap fun p => (s.comp p.2).map fun c => (p.1, c)) m := by
  have := h.items
  clear h
  generalize o.items = its at this
  induction this with
  | nil => exact .nil
  | @cons p q its m h1 _ ih =>
    obtain ⟨e, ⟨c, hc, hs⟩, -⟩ := h1
    rw [List.filterMap_cons, hc]
    exact .cons ⟨e, hs⟩ ih

theorem keys_eq {m m' : Comps} (h : List.Forall₂ (fun p q => p.1 = q.1 ∧ SameComp p.2 q.2) m m') :
    m.map Prod.fst = m'.map Prod.fst := by
  induction h with
  | nil => rfl
  | cons h _ ih => simp [h.1, ih]

/-- Rebuilding a network whose parts have their buffers. -/
theorem rebuild_spec {s : Site} {x : ℕ} {o : NetObj} {m : Comps} (h : HasParts s x o m) {c : Comp} (hne : o.conns ≠ [])
    (hm : m ≠ []) (hs : o.conns.map stripConn = o.conns) (hk : mkNet o.name m o.conns = .ok c) :
    ∃ s', s.rebuild x = (s', .ok ()) ∧ s'.stack = s.stack ∧ s'.objs.length = s.objs.length ∧
      (∀ z < x, s'.objs[z]? = s.objs[z]?) ∧
      HasParts s' x { o with used := usedNames o.conns, buf := some c } m := by
  have hin : o.items ≠ [] := by
    intro e
    have := h.items
    rw [e] at this
    cases this; exact hm rfl
  have huse := mkNet_uses hk
  rw [hs] at huse
  have hknown : knownNames o.items (usedNames o.conns) = usedNames o.conns :=
    knownNames_all fun n hn => by rw [h.names]; exact huse n hn
  obtain ⟨r1, r2, r3, r4⟩ := renames_spec h.refs (usedNames o.conns) s h.obj
  set s1 := (usedNames o.conns).foldl (fun s n => s.rename x n) s with hs1
  have ho1 : s1.objs[x]? = some o := (r4 x le_rfl).trans h.obj
  have h1 : HasParts s1 x o m := h.move ho1 rfl fun y c _ hc => (r3 _).trans hc
  have hmods := h1.modules
  set ms := o.items.filterMap fun p => (s1.comp p.2).map fun c => (p.1, c) with hms
  have hkeys : ms.map Prod.fst = m.map Prod.fst := keys_eq hmods
  have hlt : x < s1.objs.length := by
    by_contra hh
    rw [List.getElem?_eq_none (by omega)] at ho1; cases ho1
  refine ⟨s1.put x { o with used := usedNames o.conns, buf := some c }, ?_, r1, by simp [Site.put, r2], ?_, ?_⟩
  · unfold Site.rebuild
    rw [h.obj]
    simp only
    rw [if_neg hne, if_neg hin]
    simp only [hs, hknown, ← hs1, ho1, Option.getD_some, ← hms]
    rw [if_neg (by simp), if_neg (by
      rintro ⟨n, hn, hno⟩
      rw [hkeys] at hno
      exact hno (huse n hn)), mkNet_same hmods, hk]
  · intro z hz
    rw [← r4 z hz.le]
    unfold Site.put
    simp only [List.getElem?_set]
    rw [if_neg (by omega)]
  · refine h1.move ?_ rfl ?_
    · simp [Site.put, hlt]
    · intro y d hy hd
      rw [← hd]
      unfold Site.comp Site.put
      simp only [List.getElem?_set]
      rw [if_neg (by omega)]

end PT

namespace PT
open Spec

theorem put_get {s : Site} {x : ℕ} {o : NetObj} (h : s.objs[x]? = some o) (o' : NetObj) : (s.put x o').objs[x]? = some o' := by
  have hlt : x < s.objs.length := by
    by_contra hh
    rw [List.getElem?_eq_none (by omega)] at h; cases h
  simp [Site.put, hlt]

theorem put_other {s : Site} {x z : ℕ} (h : z ≠ x) (o : NetObj) : (s.put x o).objs[z]? = s.objs[z]? := by
  unfold Site.put
  simp only [List.getElem?_set]
  rw [if_neg (Ne.symm h)]

/-- The object itself may change, if not its items. -/
theorem HasParts.put {s : Site} {x : ℕ} {o o' : NetObj} {m : Comps} (h : HasParts s x o m) (hi : o'.items = o.items) :
    HasParts (s.put x o') x o' m := by
  refine h.move (put_get h.obj o') hi fun y c hy hc => ?_
  rw [← hc]
  unfold Site.comp
  simp only
  rw [put_other (by omega)]

theorem outsDiffer_prefix {cs ds : List Conn} (h : OutsDiffer (cs ++ ds)) : OutsDiffer cs := by
  unfold OutsDiffer at *
  have e : outs (cs ++ ds) = outs cs ++ outs ds := List.filterMap_append
  rw [e, List.map_append, List.map_append] at h
  exact ⟨(List.nodup_append.mp h.1).1, (List.nodup_append.mp h.2.1).1, fun o ho => h.2.2 o (by simp [ho])⟩

theorem contiguous_differ {cs : List Conn} (h : Contiguous cs) : OutsDiffer cs := by
  refine ⟨?_, h.2⟩
  rw [h.1.nodup_iff]
  exact List.nodup_range.map (fun a b h => by simpa using h)

theorem between_good {es : List Elem} (h : ∀ e ∈ es, GoodName e.name) : GoodConns (between es) := by
  induction es with
  | nil => intro c hc; simp [between] at hc
  | cons e es ih =>
    cases es with
    | nil => intro c hc; simp [between] at hc
    | cons e' es =>
      intro c hc
      rw [between, List.mem_append] at hc
      rcases hc with hc | hc
      · rw [Option.mem_toList, Option.map₂_eq_some_iff] at hc
        obtain ⟨b, a, -, -, rfl⟩ := hc
        intro x hx
        simp only [Conn.names, List.mem_cons, List.not_mem_nil, or_false] at hx
        rcases hx with rfl | rfl
        · exact h _ (by simp)
        · exact h _ (by simp)
      · exact ih (fun a ha => h a (by simp [ha])) c hc

theorem chain_good {inp out : Option ℤ} {es : List Elem} (h : ∀ e ∈ es, GoodName e.name) : GoodConns (chain inp es out) := by
  intro c hc
  unfold chain at hc
  rw [List.mem_append, List.mem_append] at hc
  rcases hc with (hc | hc) | hc
  · exact between_good h c hc
  all_goals
    rw [Option.mem_toList, Option.bind_eq_some_iff] at hc
    obtain ⟨e, he, hc⟩ := hc
    rw [Option.map₂_eq_some_iff] at hc
    obtain ⟨a, p, -, -, rfl⟩ := hc
    intro x hx
    simp only [Conn.names, List.mem_cons, List.not_mem_nil, or_false] at hx
    subst hx
  · exact h e (List.mem_of_mem_head? he)
  · exact h e (List.mem_of_mem_getLast? he)

theorem declared_good {calls : List LinkCall} (h : ∀ l ∈ calls, l.OK) : GoodConns (declared calls) := by
  intro c hc
  obtain ⟨l, hl, hc⟩ := List.mem_flatMap.mp hc
  exact chain_good (h l hl).2.2.2.1 c hc

/-- One call of `link`. -/
theorem link_spec {s : Site} {x : ℕ} {o : NetObj} {m : Comps} (h : HasParts s x o m) {l : LinkCall} (hl : l.OK)
    {ds : List Conn} (hd : o.conns = ds.map Conn.text) (hm : ∀ p ∈ m, Built p.2 ∧ OrderOK p.2)
    (hg : GoodConns (ds ++ chain l.inp l.es l.out)) (hp : PortsExist m (ds ++ chain l.inp l.es l.out))
    (hc : OutsDiffer (ds ++ chain l.inp l.es l.out)) :
    ∃ s' o', s.link x l.args = (s', .ok ()) ∧ s'.stack = s.stack ∧ s'.objs.length = s.objs.length ∧
      (∀ z < x, s'.objs[z]? = s.objs[z]?) ∧ HasParts s' x o' m ∧ o'.name = o.name ∧ o'.items = o.items ∧
      o'.conns = (ds ++ chain l.inp l.es l.out).map Conn.text ∧
      (ds ++ chain l.inp l.es l.out ≠ [] →
        ∃ c, o'.buf = some c ∧ mkNet o.name m ((ds ++ chain l.inp l.es l.out).map Conn.text) = .ok c) := by
  have hlc : linkConns l.args = ((chain l.inp l.es l.out).map Conn.text, .ok ()) :=
    linkConns_chain l.inp l.out l.es l.ia l.oa hl.1 hl.2.1 hl.2.2
  set cs := ds ++ chain l.inp l.es l.out with hcs
  have he : o.conns ++ (chain l.inp l.es l.out).map Conn.text = cs.map Conn.text := by rw [hd, hcs, List.map_append]
  have hlink : s.link x l.args = (s.put x { o with conns := cs.map Conn.text }).rebuild x := by
    unfold Site.link
    rw [h.obj]
    simp only [hlc, he]
  have h1 : HasParts (s.put x { o with conns := cs.map Conn.text }) x { o with conns := cs.map Conn.text } m := h.put rfl
  rw [hlink]
  by_cases hne : cs = []
  · refine ⟨s.put x { o with conns := cs.map Conn.text }, { o with conns := cs.map Conn.text }, ?_, rfl,
      by simp [Site.put], fun z hz => put_other (by omega) _, h1, rfl, rfl, rfl, fun hh => absurd hne hh⟩
    unfold Site.rebuild
    rw [h1.obj]
    simp only
    rw [if_pos (by simp [hne])]
  · obtain ⟨c, hk⟩ := mkNet_accepts_any o.name m cs hm hg hne hp hc
    have hmne : m ≠ [] := by
      rintro rfl
      obtain ⟨d, hd'⟩ := List.exists_mem_of_ne_nil _ hne
      have := hp d hd'
      cases d with
      | inner a i b j => obtain ⟨⟨_, h, _⟩, _⟩ := this; cases h
      | outer a i p => obtain ⟨_, h, _⟩ := this; cases h
    obtain ⟨s', r1, r2, r3, r4, r5⟩ := rebuild_spec h1 (c := c) (by simpa using hne) hmne (map_stripConn_text hg) hk
    refine ⟨s', _, r1, r2, by rw [r3]; simp [Site.put], fun z hz => (r4 z hz).trans (put_other (by omega) _), r5, rfl, rfl, rfl,
      fun _ => ⟨c, rfl, hk⟩⟩

/-- All calls. -/
theorem calls_spec {x : ℕ} {m : Comps} (hm : ∀ p ∈ m, Built p.2 ∧ OrderOK p.2) (calls : List LinkCall) :
    ∀ (s : Site) (o : NetObj) (ds : List Conn) (rest : List ℕ), (∀ l ∈ calls, l.OK) → HasParts s x o m →
      o.conns = ds.map Conn.text → s.stack = x :: rest →
      GoodConns (ds ++ declared calls) → PortsExist m (ds ++ declared calls) → OutsDiffer (ds ++ declared calls) →
    ∃ s' o', (callsScript x calls).run s = (s', .ok ()) ∧ s'.stack = s.stack ∧ s'.objs.length = s.objs.length ∧
      (∀ z < x, s'.objs[z]? = s.objs[z]?) ∧ HasParts s' x o' m ∧ o'.name = o.name ∧ o'.items = o.items ∧
      (calls ≠ [] → ds ++ declared calls ≠ [] →
        ∃ c, o'.buf = some c ∧ mkNet o.name m ((ds ++ declared calls).map Conn.text) = .ok c) := by
  induction calls with
  | nil =>
    intro s o ds rest _ h _ _ _ _ _
    exact ⟨s, o, rfl, rfl, rfl, fun _ _ => rfl, h, rfl, rfl, fun hh => absurd rfl hh⟩
  | cons l ls ih =>
    intro s o ds rest hok h hd hst hg hp hc
    have e : ds ++ declared (l :: ls) = (ds ++ chain l.inp l.es l.out) ++ declared ls := by
      simp [declared]
    rw [e] at hg hp hc
    obtain ⟨s1, o1, a1, a2, a3, a4, a5, a6, a7, a8, a9⟩ := link_spec h (hok l (by simp)) hd hm
      (fun c hc' => hg c (by simp only [List.mem_append] at hc' ⊢; exact Or.inl hc'))
      (fun c hc' => hp c (by simp only [List.mem_append] at hc' ⊢; exact Or.inl hc')) (outsDiffer_prefix hc)
    obtain ⟨s2, o2, b1, b2, b3, b4, b5, b6, b7, b8⟩ := ih s1 o1 _ rest (fun l' hl' => hok l' (by simp [hl'])) a5 a8
      (a2.trans hst) hg hp hc
    refine ⟨s2, o2, ?_, b2.trans a2, b3.trans a3, fun z hz => (b4 z hz).trans (a4 z hz), b5, b6.trans a6, b7.trans a7, ?_⟩
    · have hfirst : (if l.here = true then Build.linkHere l.args else Build.linkOf x l.args).run s = (s1, .ok ()) := by
        cases l.here
        · exact a1
        · show s.linkHere l.args = _
          unfold Site.linkHere
          rw [hst]; exact a1
      show (Build.seq _ _).run s = _
      rw [Build.run, hfirst]
      exact b1
    · intro _ hne
      rw [e]
      rw [e] at hne
      cases ls with
      | nil =>
        have e0 : declared [] = [] := rfl
        rw [e0, List.append_nil] at hne ⊢
        obtain ⟨c, hc1, hc2⟩ := a9 hne
        have : s2 = s1 ∧ o2 = o1 := by
          have hb : s2 = s1 := by
            have : (callsScript x []).run s1 = (s1, .ok ()) := rfl
            rw [this] at b1
            exact (Prod.mk.inj b1).1.symm
          refine ⟨hb, ?_⟩
          have := b5.obj
          rw [hb, a5.obj] at this
          exact (Option.some.inj this).symm
        exact ⟨c, by rw [this.2]; exact hc1, hc2⟩
      | cons l' ls =>
        rw [← a6]
        exact b8 (by simp) hne

end PT
