import Verif.Proof.Waves
import Verif.Model.Mesh
import Verif.Spec.Link

/-! Proof support: numbered names, and networks of basic components or of networks given by a wiring plan. -/

namespace PT
open Spec

/-! ### Names -/

/-- A prefix that makes usable names. -/
def GoodPrefix (s : Str) : Bool :=
  match s with
  | [] => false
  | c :: _ => (digitVal c).isNone && decide (c ≠ '-') && decide (c ≠ '+') &&
      s.all fun c => !isSpace c && decide (c ≠ ':') && decide (c ≠ '.')

theorem plain_of {s : Str} (h : GoodPrefix s = true) {t : Str} (ht : ∀ c ∈ t, ∃ d < 10, c = digitChar d) :
    AttrName (s ++ t) := by
  cases s with
  | nil => cases h
  | cons c r =>
    simp only [GoodPrefix, Bool.and_eq_true, decide_eq_true_eq, Option.isNone_iff_eq_none] at h
    obtain ⟨⟨⟨h1, h2⟩, h3⟩, h4⟩ := h
    have hall : ∀ x ∈ (c :: r) ++ t, isSpace x = false ∧ x ≠ ':' ∧ x ≠ '.' := by
      intro x hx
      rcases List.mem_append.mp hx with hx | hx
      · have := List.all_eq_true.mp h4 x hx
        simp only [Bool.and_eq_true, Bool.not_eq_true', decide_eq_true_eq] at this
        exact ⟨this.1.1, this.1.2, this.2⟩
      · obtain ⟨d, hd, rfl⟩ := ht x hx
        refine ⟨(digitChar_plain hd).1, (digitChar_plain hd).2.1, ?_⟩
        have : ∀ d < 10, digitChar d ≠ '.' := by decide
        exact this d hd
    have hstrip : strip ((c :: r) ++ t) = (c :: r) ++ t := noSpace_strip fun x hx => (hall x hx).1
    refine ⟨⟨fun hx => (hall _ hx).2.1 rfl, hstrip, ?_⟩, by simp, fun hx => (hall _ hx).2.2 rfl⟩
    unfold pyInt
    rw [hstrip, List.cons_append]
    split
    · rename_i heq
      simp only [List.cons.injEq] at heq
      exact absurd heq.1 h2
    · rename_i heq
      simp only [List.cons.injEq] at heq
      exact absurd heq.1 h3
    · unfold parseDigits
      rw [h1]
      simp

theorem lbl_attr {s : Str} (h : GoodPrefix s = true) (i : ℕ) : AttrName (lbl s i) := plain_of h natStr_mem

theorem attr_of {s : Str} (h : GoodPrefix s = true) : AttrName s := by
  have := plain_of h (t := []) (by simp)
  simpa using this

theorem natStr_inj {i j : ℕ} (h : natStr i = natStr j) : i = j := by
  have h1 := pyInt_intStr (i : ℤ)
  have h2 := pyInt_intStr (j : ℤ)
  rw [intStr_natCast] at h1 h2
  rw [h, h2] at h1
  simp only [Option.some.injEq] at h1
  exact_mod_cast h1.symm

theorem lbl_inj {s : Str} {i j : ℕ} (h : lbl s i = lbl s j) : i = j := natStr_inj (List.append_cancel_left h)

/-- The number at the end of a name. -/
def numOf (k : ℕ) (x : Str) : ℕ := ((pyInt (x.drop k)).getD 0).toNat

theorem numOf_lbl (s : Str) (i : ℕ) : numOf s.length (lbl s i) = i := by
  unfold numOf lbl
  rw [List.drop_left, ← intStr_natCast, pyInt_intStr]
  rfl

theorem numOf_mzi (i : ℕ) : numOf 3 (mziN i) = i := numOf_lbl ['m', 'z', 'i'] i
theorem numOf_wg (i : ℕ) : numOf 2 (wgN i) = i := numOf_lbl ['w', 'g'] i
theorem numOf_layer (i : ℕ) : numOf 5 (layerN i) = i := numOf_lbl ['l', 'a', 'y', 'e', 'r'] i
theorem head_mzi (i : ℕ) : (mziN i).head? = some 'm' := rfl
theorem head_wg (i : ℕ) : (wgN i).head? = some 'w' := rfl
theorem head_layer (i : ℕ) : (layerN i).head? = some 'l' := rfl
theorem mziN_inj {i j : ℕ} : mziN i = mziN j ↔ i = j := ⟨lbl_inj, fun h => by rw [h]⟩
theorem wgN_inj {i j : ℕ} : wgN i = wgN j ↔ i = j := ⟨lbl_inj, fun h => by rw [h]⟩
theorem layerN_inj {i j : ℕ} : layerN i = layerN j ↔ i = j := ⟨lbl_inj, fun h => by rw [h]⟩

theorem ne_of_head {x y : Str} (h : x.head? ≠ y.head?) : x ≠ y := fun e => h (by rw [e])

theorem lbl_nodup (s : Str) (k : ℕ) : ((List.range k).map (lbl s)).Nodup :=
  (List.nodup_map_iff fun _ _ h => lbl_inj h).mpr List.nodup_range

/-! ### Connection strings -/

theorem conn4_text (a : Str) (i : ℕ) (b : Str) (j : ℕ) : conn4 a i b j = (Conn.inner a i b j).text := by
  unfold conn4
  simp [Conn.text, joinColon, intStr_natCast]

theorem conn3_text (a : Str) (i p : ℕ) : conn3 a i p = (Conn.outer a i p).text := by
  unfold conn3
  simp [Conn.text, joinColon, intStr_natCast]

theorem mem_range2 {a b i : ℕ} : i ∈ range2 a b ↔ a ≤ i ∧ i < b ∧ i % 2 = a % 2 := by
  unfold range2
  rw [List.mem_map]
  constructor
  · rintro ⟨k, hk, rfl⟩
    rw [List.mem_range] at hk
    omega
  · rintro ⟨h1, h2, h3⟩
    exact ⟨(i - a) / 2, List.mem_range.mpr (by omega), by omega⟩

theorem length_range2 (a b : ℕ) : (range2 a b).length = (b - a + 1) / 2 := by simp [range2]

theorem endpoints_append (a b : List Conn) : endpoints (a ++ b) = endpoints a ++ endpoints b := List.flatMap_append
theorem outs_append (a b : List Conn) : outs (a ++ b) = outs a ++ outs b := List.filterMap_append

theorem endpoints_flatMap {α : Type} (l : List α) (f : α → List Conn) :
    endpoints (l.flatMap f) = l.flatMap fun a => endpoints (f a) := by
  unfold endpoints
  rw [List.flatMap_assoc]

theorem endpoints_map {α : Type} (l : List α) (f : α → Conn) :
    endpoints (l.map f) = l.flatMap fun a => (f a).ends := by
  unfold endpoints
  rw [List.flatMap_map]

theorem outs_flatMap {α : Type} (l : List α) (f : α → List Conn) :
    outs (l.flatMap f) = l.flatMap fun a => outs (f a) := by
  unfold outs
  rw [List.filterMap_flatMap]

theorem outs_map {α : Type} (l : List α) (f : α → Conn) : outs (l.map f) = l.flatMap fun a => outs [f a] := by
  induction l with
  | nil => rfl
  | cons a l ih =>
    rw [List.map_cons, List.flatMap_cons, ← ih, ← outs_append]
    rfl

theorem length_flatMap_const {α β : Type} (l : List α) (f : α → List β) (k : ℕ) (h : ∀ a ∈ l, (f a).length = k) :
    (l.flatMap f).length = l.length * k := by
  induction l with
  | nil => simp
  | cons a l ih =>
    rw [List.flatMap_cons, List.length_append, ih fun a ha => h a (by simp [ha]), h a (by simp), List.length_cons,
      Nat.succ_mul]
    omega

theorem sum_map_const {α : Type} (l : List α) (f : α → ℕ) (k : ℕ) (h : ∀ a ∈ l, f a = k) :
    (l.map f).sum = l.length * k := by
  induction l with
  | nil => simp
  | cons a l ih =>
    rw [List.map_cons, List.sum_cons, ih fun a ha => h a (by simp [ha]), h a (by simp), List.length_cons, Nat.succ_mul]
    omega

/-! ### Parts -/

theorem part_leaf (p : Part) : ∃ src det act, p.comp = leaf p.n src det act ∧ src.length = p.n ∧ det.length = p.n ∧
    act.length = p.n := by
  cases p <;> exact ⟨_, _, _, rfl, by simp [Part.n], by simp [Part.n], by simp [Part.n]⟩

theorem part_free (p : Part) : freePorts p.comp = List.range p.n := by
  obtain ⟨_, _, _, h, -⟩ := part_leaf p
  rw [h]
  unfold freePorts
  show (List.range p.n).filter _ = _
  rw [List.filter_eq_self]
  intro i hi
  simp only [decide_eq_true_eq]
  exact ⟨List.mem_range.mp hi, fun _ _ => ⟨rfl, rfl⟩⟩

theorem part_order (p : Part) : p.comp.portOrder = List.range p.comp.n := by
  obtain ⟨_, _, _, h, -⟩ := part_leaf p
  rw [h]; rfl

theorem Spec.MadeOf.clean {P : Part → Prop} {d : Dev} (h : MadeOf P d) : Clean d.comp := (madeOf_flat h).1

theorem Spec.MadeOf.ok {P : Part → Prop} {d : Dev} (h : MadeOf P d) : Built d.comp ∧ OrderOK d.comp :=
  ⟨h.clean.built, (C19_clean_partial _ h.clean).1⟩

/-- A basic component scattering only between two sides. -/
theorem part_oriented (p : Part) (side : ℕ → Bool)
    (h : ∀ wl (i j : Fin p.n), scattering p wl i j ≠ 0 → side i ≠ side j)
    (hs : ∀ i, p.comp.src.getD i false = true → side i = false) : Oriented p.dev side := by
  refine ⟨side, fun _ => 0, ⟨?_, ?_⟩, ?_, hs⟩
  · intro wl i j _ _ hne
    refine ⟨?_, rfl⟩
    have hij : i < p.n ∧ j < p.n := by
      by_contra hno
      rcases hne with hne | hne <;> exact hne (ofFin_zero _ _ _ (by omega))
    refine h wl ⟨i, hij.1⟩ ⟨j, hij.2⟩ ?_
    intro h0
    unfold scattering at h0
    rcases hne with hne | hne
    · apply hne
      show ofFin (p.S wl).re i j = 0
      unfold ofFin
      rw [dif_pos hij]
      have := congrArg Complex.re h0
      simpa [cx] using this
    · apply hne
      show ofFin (p.S wl).im i j = 0
      unfold ofFin
      rw [dif_pos hij]
      have := congrArg Complex.im h0
      simpa [cx] using this
  · intro i j hne
    obtain ⟨_, _, _, h, -⟩ := part_leaf p
    have : p.dev.comp = p.comp := rfl
    rw [this, h] at hne
    exact absurd rfl hne
  · intro j q hq
    have : (freePorts p.dev.comp) = List.range p.n := part_free p
    rw [this] at hq
    have hj : j < (List.range p.n).length := by
      by_contra hlt
      rw [List.getElem?_eq_none (by omega)] at hq
      cases hq
    rw [List.getElem?_eq_getElem hj, List.getElem_range] at hq
    simp only [Option.some.injEq] at hq
    rw [hq]

/-- Waves through a basic component. -/
theorem part_waves {R : Type} [CommRing R] (p : Part) (u : Look R) (e a b f g : ℕ → R)
    (hb : ∀ i < p.n, b i = (∑ j ∈ Finset.range p.n, p.dev.gain u i j * a j) + e i)
    (hf : ∀ i < p.n, a i = f i ∧ b i = g i) : Waves p.dev u e a b f g := by
  have hn : p.dev.comp.n = p.n := part_n p
  refine ⟨?_, ?_, ?_⟩
  · intro i hi
    rw [hn] at hi ⊢
    exact hb i hi
  · intro i j hne
    obtain ⟨_, _, _, h, -⟩ := part_leaf p
    have : p.dev.comp = p.comp := rfl
    rw [this, h] at hne
    exact absurd rfl hne
  · intro j q hq
    have : (freePorts p.dev.comp) = List.range p.n := part_free p
    rw [this] at hq
    have hj : j < (List.range p.n).length := by
      by_contra hlt
      rw [List.getElem?_eq_none (by omega)] at hq
      cases hq
    rw [List.getElem?_eq_getElem hj, List.getElem_range] at hq
    simp only [Option.some.injEq] at hq
    rw [← hq]
    exact hf j (by simpa using hj)

theorem waves_named {d : Dev} {R : Type} [CommRing R] {u : Look R} {e a b f g : ℕ → R} (h : Waves d u e a b f g) (x : Option Str) :
    Waves { d with comp := { d.comp with name := x } } u e a b f g := ⟨h.out, h.link, h.port⟩

/-- What is known about a network made according to a plan. -/
structure Made (P : Part → Prop) (modules : List (Str × Dev)) (cs : List Conn) (D : List (Str × ℤ)) (d : Dev) : Prop where
  made : MadeOf P d
  len : (freePorts d.comp).length = D.length
  ports : PortsAre (comps modules) cs d.comp D
  oriented : ∀ (side : Str → ℕ → Bool) (level : Str → ℕ), (∀ x e, dictGet x modules = some e → Oriented e (side x)) →
    Directed cs side level → ∀ S : ℕ → Bool,
    (∀ (j : ℕ) x (i : ℕ), D[j]? = some (x, (i : ℤ)) → S j = side x i) → Oriented d S
  marks : ∃ l : List (Str × Dev), (∀ p ∈ l, dictGet p.1 modules = some p.2) ∧ l.map Prod.fst = firstMentions cs ∧
    d.comp.src = (l.flatMap fun p => p.2.comp.src) ∧ d.comp.det = l.flatMap fun p => p.2.comp.det
  waves : ∃ l : List (Str × Dev), (∀ p ∈ l, dictGet p.1 modules = some p.2) ∧ l.map Prod.fst = firstMentions cs ∧
    d.comp.n = (l.map fun q => q.2.comp.n).sum ∧
    d.comp.src = (l.flatMap fun p => p.2.comp.src) ∧ d.comp.det = (l.flatMap fun p => p.2.comp.det) ∧
    ∀ (R : Type) [CommRing R] (u : Look R) (E A B F G : Str → ℕ → R),
      (∀ x e, dictGet x modules = some e → Waves e u (E x) (A x) (B x) (F x) (G x)) → Linked cs F G →
      ∀ f g : ℕ → R, (∀ (j : ℕ) x (i : ℕ), D[j]? = some (x, (i : ℤ)) → f j = F x i ∧ g j = G x i) →
      Waves d u (spread l E) (spread l A) (spread l B) f g
  ready : (∀ p ∈ modules, MadeOf P p.2) ∧ GoodConns cs ∧ (∀ e ∈ D, 0 ≤ e.2) ∧ ∃ name, mkDev name modules (cs.map Conn.text) = .ok d

/-- Waves through a network made according to a plan. -/
theorem Made.carries {P : Part → Prop} {modules : List (Str × Dev)} {cs : List Conn} {D : List (Str × ℤ)} {d : Dev}
    (h : Made P modules cs D d) {R : Type} [CommRing R] (u : Look R) (F G : Str → ℕ → R)
    (hc : ∀ x e, dictGet x modules = some e → Carries e u (F x) (G x)) (hl : Linked cs F G) (f g : ℕ → R)
    (hfg : ∀ (j : ℕ) x (i : ℕ), D[j]? = some (x, (i : ℤ)) → f j = F x i ∧ g j = G x i) : Carries d u f g := by
  have hch : ∀ x : Str, ∃ a b : ℕ → R, ∀ e, dictGet x modules = some e → Waves e u (fun _ => 0) a b (F x) (G x) := by
    intro x
    cases hx : dictGet x modules with
    | none => exact ⟨fun _ => 0, fun _ => 0, fun e h => by cases h⟩
    | some e =>
      obtain ⟨a, b, hab⟩ := hc x e hx
      refine ⟨a, b, fun e' h => ?_⟩
      simp only [Option.some.injEq] at h
      subst h
      exact hab
  choose A B hAB using hch
  obtain ⟨l, -, -, -, -, -, hw⟩ := h.waves
  have := hw R u (fun _ _ => 0) A B F G hAB hl f g hfg
  refine ⟨_, _, ?_, this.link, this.port⟩
  intro i hi
  rw [this.out i hi, spread_zero]

theorem mkDev_of_mkNet {name : Option Str} {modules : List (Str × Dev)} {conns : List Str} {c : Comp}
    (h : mkNet name (comps modules) conns = .ok c) : ∃ d, mkDev name modules conns = .ok d ∧ d.comp = c := by
  unfold mkDev
  rw [comps] at h
  rw [h]
  exact ⟨_, rfl, rfl⟩

theorem plan_made {P : Part → Prop} {X : List Str} {n : Str → ℕ} {cs : List Conn} {D : List (Str × ℤ)}
    {modules : List (Str × Dev)} {name : Option Str} {conns : List Str} (h : Plan X n cs D)
    (hconns : conns = cs.map Conn.text) (hm : ∀ p ∈ modules, MadeOf P p.2)
    (hw : GoodConns cs ∧ UsedOnce cs ∧ Contiguous cs ∧
      ∃ c, mkNet name (comps modules) (cs.map Conn.text) = .ok c ∧ PortsAre (comps modules) cs c D) :
    ∃ d, mkDev name modules conns = .ok d ∧ Made P modules cs D d := by
  obtain ⟨hg, hu, hc, c, hk, hp⟩ := hw
  obtain ⟨d, hd, hdc⟩ := mkDev_of_mkNet hk
  rw [← hconns] at hd
  have hD : PortsAre (comps modules) cs d.comp D := by rw [hdc]; exact hp
  have hpos : ∀ e ∈ D, 0 ≤ e.2 := by
    intro e he
    obtain ⟨-, i, -, hi⟩ := h.mem (.inr he)
    omega
  refine ⟨d, hd, ?_, ?_, hD, ?_, ?_,
    waves_compose (fun p hp => (hm p hp).ok) hg (hconns ▸ hd) D hD hpos, hm, hg, hpos, name, hconns ▸ hd⟩
  · exact .net name modules cs d hm hg hu hc (hconns ▸ hd)
  · obtain ⟨l, -, hlay, -⟩ := mkDev_ok hg (hconns ▸ hd)
    exact (hD _ hlay).length_eq.symm
  · intro side level ho hdir S hS
    refine ff_compose (fun p hp => (hm p hp).ok) hg (hconns ▸ hd) side level ho hdir D hD hpos S hS
  · obtain ⟨l, hl, hlay, -, hb, -⟩ := mkDev_ok hg (hconns ▸ hd)
    obtain ⟨-, -, -, -, hs, hdt, -⟩ := netBuffers_ok hb
    refine ⟨l, hl, ?_, by rw [hs, List.flatMap_map], by rw [hdt, List.flatMap_map]⟩
    have := hlay.1
    rw [List.map_map] at this
    exact this

theorem comps_get {modules : List (Str × Dev)} {x : Str} {d : Dev} (h : dictGet x modules = some d) :
    dictGet x (comps modules) = some d.comp := by
  rw [comps, dictGet_map (fun q : Dev => q.comp), h]
  rfl

/-- Networks of basic components with declared external ports. -/
theorem leaf_made {P : Part → Prop} {X : List Str} {n : Str → ℕ} {cs : List Conn} {D : List (Str × ℤ)}
    {parts : List (Str × Part)} (name : Option Str) {conns : List Str} (h : Plan X n cs D)
    (hconns : conns = cs.map Conn.text) (hP : ∀ q ∈ parts, P q.2 ∧ 0 < q.2.n)
    (hmod : ∀ x ∈ X, ∃ p, dictGet x parts = some p ∧ p.n = n x)
    (hD : ∀ (j : ℕ) e, D[j]? = some e → Conn.outer e.1 e.2 j ∈ cs) (hl : (outs cs).length ≤ D.length) (hne : cs ≠ []) :
    ∃ d, mkDev name (parts.map fun q => (q.1, q.2.dev)) conns = .ok d ∧
      Made P (parts.map fun q => (q.1, q.2.dev)) cs D d := by
  have hm : ∀ p ∈ parts.map (fun q => (q.1, q.2.dev)), MadeOf P p.2 := by
    intro p hp
    obtain ⟨q, hq, rfl⟩ := List.mem_map.mp hp
    exact .part _ (hP q hq).1 (hP q hq).2
  refine plan_made h hconns hm (wire_declared name h ?_ ?_ hD hl hne)
  · intro p hp
    simp only [comps, List.map_map, List.mem_map] at hp
    obtain ⟨q, hq, rfl⟩ := hp
    exact ⟨(MadeOf.part (P := P) q.2 (hP q hq).1 (hP q hq).2).ok.1, part_order q.2⟩
  · intro x hx
    obtain ⟨p, hp, hn⟩ := hmod x hx
    refine ⟨p.comp, ?_, by rw [part_free, List.length_range, hn]⟩
    rw [comps_get (d := p.dev)]
    · rfl
    · rw [dictGet_map, hp]; rfl

/-- Networks of networks without external declarations. -/
theorem open_made {P : Part → Prop} {X : List Str} {n : Str → ℕ} {cs : List Conn} {D : List (Str × ℤ)}
    {modules : List (Str × Dev)} (name : Option Str) {conns : List Str} (h : Plan X n cs D)
    (hconns : conns = cs.map Conn.text) (hm : ∀ p ∈ modules, MadeOf P p.2)
    (hmod : ∀ x ∈ X, ∃ d, dictGet x modules = some d ∧ (freePorts d.comp).length = n x)
    (hno : outs cs = []) (hne : cs ≠ [])
    (hD : D = (allPorts (firstMentions cs) n).filter fun e => decide (e ∉ endpoints cs)) :
    ∃ d, mkDev name modules conns = .ok d ∧ Made P modules cs D d := by
  refine plan_made h hconns hm (wire_open name h ?_ ?_ hno hne hD)
  · intro p hp
    simp only [comps, List.mem_map] at hp
    obtain ⟨q, hq, rfl⟩ := hp
    exact (hm q hq).ok
  · intro x hx
    obtain ⟨d, hd, hn⟩ := hmod x hx
    exact ⟨d.comp, comps_get hd, hn⟩

end PT
