import Verif.Proof.Nested
import Verif.Spec.Replace

/-!
# Circuits with open ports, composed
-/

namespace PT
open Spec

/-- Values at the ports that obey the connections and the laws of the components. -/
structure Fits {V : Type} (parts : List (Str × Part)) (cs : List Conn) (law : Str × Part → (ℕ → V) → (ℕ → V) → Prop)
    (A B : Str → ℕ → V) : Prop where
  joined : ∀ a i b j, PT.Spec.Joined cs a i b j → A a i = B b j
  obeys : ∀ q ∈ parts, law q (A q.1) (B q.1)

/-- The values that are possible at the open ports. -/
def Meets {V : Type} (s : Sheet) (law : Str × Part → (ℕ → V) → (ℕ → V) → Prop) (a b : ℕ → V) : Prop :=
  ∃ A B, Fits s.parts s.conns law A B ∧ ∀ k e, s.free[k]? = some e → A e.1 e.2.toNat = a k ∧ B e.1 e.2.toNat = b k

/-- Connected boxes with open ports `D`. -/
structure Boxed (sheet : Str → Sheet) (cs : List Conn) (D : List (Str × ℤ)) : Prop where
  once : ∀ x ∈ firstMentions cs, (endpoints (sheet x).conns ++ (sheet x).free).Perm (portNames (sheet x).parts)
  ports : ∀ e ∈ endpoints cs ++ D, e ∈ boxPorts sheet cs
  names : ((Sheet.merge sheet cs D).parts.map Prod.fst).Nodup

variable {V : Type} {law : Str × Part → (ℕ → V) → (ℕ → V) → Prop} {sheet : Str → Sheet} {cs : List Conn} {D : List (Str × ℤ)}

/-- What is behind a port of a box is a port of a component in it. -/
theorem Boxed.behind (h : Boxed sheet cs D) {e : Str × ℤ} (he : e ∈ boxPorts sheet cs) :
    ∃ k : ℕ, e.2 = k ∧ (sheet e.1).free[k]? = some (portAt sheet e) ∧
      ∃ q ∈ (sheet e.1).parts, ∃ i : ℕ, i < q.2.n ∧ portAt sheet e = (q.1, (i : ℤ)) := by
  obtain ⟨hx, k, hk, he2⟩ := mem_boxPorts.mp he
  have h1 : (sheet e.1).free[k]? = some ((sheet e.1).free[k]) := List.getElem?_eq_getElem hk
  have h2 : portAt sheet e = (sheet e.1).free[k] := by
    unfold portAt
    rw [he2, Int.toNat_natCast, h1]
    rfl
  refine ⟨k, he2, by rw [h1, h2], ?_⟩
  have h3 : (sheet e.1).free[k] ∈ portNames (sheet e.1).parts :=
    (h.once e.1 hx).mem_iff.mp (List.mem_append_right _ (List.getElem_mem hk))
  obtain ⟨q, hq, i, hi, hqi⟩ := mem_portNames.mp h3
  exact ⟨q, hq, i, hi, by rw [h2, hqi]⟩

/-- A component is in one box only. -/
theorem Boxed.owner (h : Boxed sheet cs D) {x y n : Str} (hx : x ∈ firstMentions cs) (hy : y ∈ firstMentions cs)
    (hnx : n ∈ (sheet x).parts.map Prod.fst) (hny : n ∈ (sheet y).parts.map Prod.fst) : x = y := by
  have h' : (((firstMentions cs).flatMap fun x => (sheet x).parts).map Prod.fst).Nodup := h.names
  rw [List.map_flatMap, List.nodup_flatMap] at h'
  have key : ∀ l : List Str, l.Pairwise (fun a b => List.Disjoint ((sheet a).parts.map Prod.fst) ((sheet b).parts.map Prod.fst)) →
      ∀ {x y}, x ∈ l → y ∈ l → n ∈ (sheet x).parts.map Prod.fst → n ∈ (sheet y).parts.map Prod.fst → x = y := by
    intro l hl
    induction hl with
    | nil => intro x y hx; cases hx
    | cons hd _ ih =>
      intro x y hx hy h1 h2
      rcases List.mem_cons.mp hx with rfl | hx'
      · rcases List.mem_cons.mp hy with rfl | hy'
        · rfl
        · exact absurd h2 (hd y hy' h1)
      · rcases List.mem_cons.mp hy with rfl | hy'
        · exact absurd h1 (hd x hx' h2)
        · exact ih hx' hy' h1 h2
  exact key _ h'.2 hx hy hnx hny

/-- The ends of the connections in a box are ports of its components. -/
theorem Boxed.inside (h : Boxed sheet cs D) {x : Str} (hx : x ∈ firstMentions cs) {a b : Str} {i j : ℕ}
    (hj : PT.Spec.Joined (sheet x).conns a i b j) : a ∈ (sheet x).parts.map Prod.fst ∧ b ∈ (sheet x).parts.map Prod.fst := by
  have key : ∀ e : Str × ℤ, e ∈ endpoints (sheet x).conns → e.1 ∈ (sheet x).parts.map Prod.fst := by
    intro e he
    obtain ⟨q, hq, i, -, rfl⟩ := mem_portNames.mp ((h.once x hx).mem_iff.mp (List.mem_append_left _ he))
    exact List.mem_map.mpr ⟨q, hq, rfl⟩
  exact ⟨key _ (joined_ends hj).1, key _ (joined_ends hj).2⟩

theorem joined_merge_box {x : Str} (hx : x ∈ firstMentions cs) {a b : Str} {i j : ℕ} (hj : PT.Spec.Joined (sheet x).conns a i b j) :
    PT.Spec.Joined (Sheet.merge sheet cs D).conns a i b j := by
  have key : ∀ c ∈ (sheet x).conns, c ∈ (Sheet.merge sheet cs D).conns := fun c hc =>
    List.mem_append_right _ (List.mem_flatMap.mpr ⟨x, hx, hc⟩)
  exact hj.imp (key _) (key _)

theorem mem_wires {c : Conn} : c ∈ wires sheet cs ↔ ∃ a i b j, Conn.inner a i b j ∈ cs ∧
    c = .inner (portAt sheet (a, i)).1 (portAt sheet (a, i)).2 (portAt sheet (b, j)).1 (portAt sheet (b, j)).2 := by
  unfold wires
  rw [List.mem_filterMap]
  constructor
  · rintro ⟨c', hc', h⟩
    cases c' with
    | inner a i b j => exact ⟨a, i, b, j, hc', (Option.some.inj h).symm⟩
    | outer a i p => cases h
  · rintro ⟨a, i, b, j, hc', rfl⟩
    exact ⟨_, hc', rfl⟩

/-- The value at a port of a box is that at the component behind it. -/
def seen (sheet : Str → Sheet) (A : Str → ℕ → V) (x : Str) (i : ℕ) : V := A (portAt sheet (x, (i : ℤ))).1 (portAt sheet (x, (i : ℤ))).2.toNat

theorem Boxed.seen_eq (h : Boxed sheet cs D) (A : Str → ℕ → V) {e : Str × ℤ} (he : e ∈ boxPorts sheet cs) :
    seen sheet A e.1 e.2.toNat = A (portAt sheet e).1 (portAt sheet e).2.toNat := by
  obtain ⟨k', hk', -⟩ := h.behind he
  have e3 : (e.1, ((e.2.toNat : ℕ) : ℤ)) = e := by rw [hk', Int.toNat_natCast, ← hk']
  unfold seen
  rw [e3]

theorem meets_box {A B : Str → ℕ → V} (hF : Fits (Sheet.merge sheet cs D).parts (Sheet.merge sheet cs D).conns law A B) {x : Str}
    (hx : x ∈ firstMentions cs) : Fits (sheet x).parts (sheet x).conns law A B ∧ Meets (sheet x) law (seen sheet A x) (seen sheet B x) := by
  have h1 : Fits (sheet x).parts (sheet x).conns law A B :=
    ⟨fun a i b j hj => hF.joined _ _ _ _ (joined_merge_box hx hj), fun q hq => hF.obeys q (List.mem_flatMap.mpr ⟨x, hx, hq⟩)⟩
  refine ⟨h1, A, B, h1, fun k e he => ?_⟩
  unfold seen
  rw [portAt_get sheet x he]
  exact ⟨rfl, rfl⟩

theorem Boxed.seen_joined (h : Boxed sheet cs D) {A B : Str → ℕ → V}
    (hF : Fits (Sheet.merge sheet cs D).parts (Sheet.merge sheet cs D).conns law A B) (x : Str) (i : ℕ) (y : Str) (j : ℕ)
    (hj : PT.Spec.Joined cs x i y j) : seen sheet A x i = seen sheet B y j := by
  obtain ⟨h1, h2⟩ := joined_ends hj
  obtain ⟨-, -, -, q, -, i', -, e1⟩ := h.behind (h.ports _ (List.mem_append_left _ h1))
  obtain ⟨-, -, -, q', -, j', -, e2⟩ := h.behind (h.ports _ (List.mem_append_left _ h2))
  unfold seen
  rw [e1, e2]
  refine hF.joined _ _ _ _ ?_
  have key : ∀ {x y : Str} {i j : ℕ}, Conn.inner x i y j ∈ cs → Conn.inner (portAt sheet (x, (i : ℤ))).1 (portAt sheet (x, (i : ℤ))).2
      (portAt sheet (y, (j : ℤ))).1 (portAt sheet (y, (j : ℤ))).2 ∈ (Sheet.merge sheet cs D).conns :=
    fun hc => List.mem_append_left _ (mem_wires.mpr ⟨_, _, _, _, hc, rfl⟩)
  rcases hj with hj | hj
  · have := key hj
    rw [e1, e2] at this
    exact .inl this
  · have := key hj
    rw [e1, e2] at this
    exact .inr this

/-- What fits in the boxes, and on the connections between them, fits together. -/
theorem Boxed.glue [Nonempty V] (h : Boxed sheet cs D) (P Q : Str → ℕ → V) (hM : ∀ x ∈ firstMentions cs, Meets (sheet x) law (P x) (Q x))
    (hj : ∀ x i y j, PT.Spec.Joined cs x i y j → P x i = Q y j) :
    ∃ A B, Fits (Sheet.merge sheet cs D).parts (Sheet.merge sheet cs D).conns law A B ∧
      ∀ e ∈ boxPorts sheet cs, A (portAt sheet e).1 (portAt sheet e).2.toNat = P e.1 e.2.toNat ∧
        B (portAt sheet e).1 (portAt sheet e).2.toNat = Q e.1 e.2.toNat := by
  have hend : ∀ e ∈ endpoints cs, e ∈ boxPorts sheet cs := fun e he => h.ports e (List.mem_append_left _ he)
  choose! A B hF hab using hM
  classical
  let own : Str → Option Str := fun n => (firstMentions cs).find? fun x => decide (n ∈ (sheet x).parts.map Prod.fst)
  have hown : ∀ {n x}, x ∈ firstMentions cs → n ∈ (sheet x).parts.map Prod.fst → own n = some x := by
    intro n x hx hn
    have hsome : (own n).isSome := List.find?_isSome.mpr ⟨x, hx, decide_eq_true hn⟩
    obtain ⟨y, hy⟩ := Option.isSome_iff_exists.mp hsome
    have hy1 := List.mem_of_find?_eq_some hy
    have hy2 := of_decide_eq_true (List.find?_some (p := fun x => decide (n ∈ (sheet x).parts.map Prod.fst)) hy)
    rw [hy, h.owner hx hy1 hn hy2]
  let A' : Str → ℕ → V := fun n i => A ((own n).getD []) n i
  let B' : Str → ℕ → V := fun n i => B ((own n).getD []) n i
  have hA : ∀ {n x}, x ∈ firstMentions cs → n ∈ (sheet x).parts.map Prod.fst → A' n = A x n ∧ B' n = B x n := by
    intro n x hx hn
    constructor
    · funext i; show A ((own n).getD []) n i = _; rw [hown hx hn]; rfl
    · funext i; show B ((own n).getD []) n i = _; rw [hown hx hn]; rfl
  have hport : ∀ {e : Str × ℤ}, e ∈ boxPorts sheet cs → A' (portAt sheet e).1 (portAt sheet e).2.toNat = P e.1 e.2.toNat ∧
      B' (portAt sheet e).1 (portAt sheet e).2.toNat = Q e.1 e.2.toNat := by
    intro e he
    have hx := (mem_boxPorts.mp he).1
    obtain ⟨k, hk, hf, q, hq, i, hi, hqi⟩ := h.behind he
    have hn : (portAt sheet e).1 ∈ (sheet e.1).parts.map Prod.fst := by rw [hqi]; exact List.mem_map.mpr ⟨q, hq, rfl⟩
    have := hab e.1 hx k _ hf
    rw [(hA hx hn).1, (hA hx hn).2, hk, Int.toNat_natCast]
    exact this
  refine ⟨A', B', ⟨?_, ?_⟩, fun e he => hport he⟩
  · have hw : ∀ a i b j, Conn.inner a i b j ∈ wires sheet cs → A' a i.toNat = B' b j.toNat ∧ A' b j.toNat = B' a i.toNat := by
      intro a i b j hc
      obtain ⟨x, k, y, l, hc', e⟩ := mem_wires.mp hc
      injection e with e1 e2 e3 e4
      subst e1 e2 e3 e4
      have m1 := hend (x, k) (mem_endpoints.mpr ⟨_, _, _, _, hc', .inl rfl⟩)
      have m2 := hend (y, l) (mem_endpoints.mpr ⟨_, _, _, _, hc', .inr rfl⟩)
      obtain ⟨k', hk', -⟩ := h.behind m1
      obtain ⟨l', hl', -⟩ := h.behind m2
      simp only at hk' hl'
      subst hk' hl'
      exact ⟨(hport m1).1.trans ((hj _ _ _ _ (.inl hc')).trans (hport m2).2.symm),
        (hport m2).1.trans ((hj _ _ _ _ (.inr hc')).trans (hport m1).2.symm)⟩
    intro a i b j hJ
    have hin : ∀ {a b : Str} {i j : ℕ}, Conn.inner a i b j ∈ (Sheet.merge sheet cs D).conns → Conn.inner a i b j ∈ wires sheet cs ∨
        ∃ x ∈ firstMentions cs, Conn.inner a i b j ∈ (sheet x).conns := by
      intro a b i j hc
      rcases List.mem_append.mp hc with hc | hc
      · exact .inl hc
      · obtain ⟨x, hx, hc⟩ := List.mem_flatMap.mp hc
        exact .inr ⟨x, hx, hc⟩
    have hbox : ∀ {x}, x ∈ firstMentions cs → PT.Spec.Joined (sheet x).conns a i b j → A' a i = B' b j := by
      intro x hx hJ
      obtain ⟨h1, h2⟩ := h.inside hx hJ
      rw [(hA hx h1).1, (hA hx h2).2]
      exact (hF x hx).joined _ _ _ _ hJ
    rcases hJ with hJ | hJ
    · rcases hin hJ with hJ | ⟨x, hx, hJ⟩
      · simpa using (hw _ _ _ _ hJ).1
      · exact hbox hx (.inl hJ)
    · rcases hin hJ with hJ | ⟨x, hx, hJ⟩
      · simpa using (hw _ _ _ _ hJ).2
      · exact hbox hx (.inr hJ)
  · intro q hq
    obtain ⟨x, hx, hq⟩ := List.mem_flatMap.mp hq
    have hn : q.1 ∈ (sheet x).parts.map Prod.fst := List.mem_map.mpr ⟨q, hq, rfl⟩
    rw [(hA hx hn).1, (hA hx hn).2]
    exact (hF x hx).obeys q hq

/-- What boxes connected with each other do is determined by what each of them does. -/
theorem meets_merge [Nonempty V] (h : Boxed sheet cs D) (a b : ℕ → V) : Meets (Sheet.merge sheet cs D) law a b ↔
    ∃ P Q : Str → ℕ → V, (∀ x ∈ firstMentions cs, Meets (sheet x) law (P x) (Q x)) ∧
      (∀ x i y j, PT.Spec.Joined cs x i y j → P x i = Q y j) ∧
      ∀ (k : ℕ) e, D[k]? = some e → P e.1 e.2.toNat = a k ∧ Q e.1 e.2.toNat = b k := by
  have hfree : ∀ (k : ℕ) e, (Sheet.merge sheet cs D).free[k]? = some e ↔ ∃ e0, D[k]? = some e0 ∧ portAt sheet e0 = e := by
    intro k e
    show (D.map (portAt sheet))[k]? = _ ↔ _
    rw [List.getElem?_map, Option.map_eq_some_iff]
  have hD : ∀ {k : ℕ} {e}, D[k]? = some e → e ∈ boxPorts sheet cs := fun he => h.ports _ (List.mem_append_right _ (List.mem_of_getElem? he))
  constructor
  · rintro ⟨A, B, hF, hab⟩
    refine ⟨seen sheet A, seen sheet B, fun x hx => (meets_box hF hx).2, h.seen_joined hF, fun k e he => ?_⟩
    rw [h.seen_eq A (hD he), h.seen_eq B (hD he)]
    exact hab k _ ((hfree k _).mpr ⟨e, he, rfl⟩)
  · rintro ⟨P, Q, hM, hj, hab⟩
    obtain ⟨A, B, hF, hp⟩ := h.glue P Q hM hj
    refine ⟨A, B, hF, fun k e he => ?_⟩
    obtain ⟨e0, h0, rfl⟩ := (hfree k e).mp he
    rw [(hp e0 (hD h0)).1, (hp e0 (hD h0)).2]
    exact hab k e0 h0

/-- Boxes that are replaced by boxes that do the same. -/
theorem Boxed.replace [Nonempty V] {sheet' : Str → Sheet} (h : Boxed sheet cs D) (h' : Boxed sheet' cs D)
    (heq : ∀ x ∈ firstMentions cs, ∀ a b, Meets (sheet x) law a b ↔ Meets (sheet' x) law a b) (a b : ℕ → V) :
    Meets (Sheet.merge sheet cs D) law a b ↔ Meets (Sheet.merge sheet' cs D) law a b := by
  rw [meets_merge h, meets_merge h']
  constructor
  · rintro ⟨P, Q, hM, hr⟩
    exact ⟨P, Q, fun x hx => (heq x hx _ _).mp (hM x hx), hr⟩
  · rintro ⟨P, Q, hM, hr⟩
    exact ⟨P, Q, fun x hx => (heq x hx _ _).mpr (hM x hx), hr⟩

/-- Only zero fits if nothing enters. -/
def Quiet {V : Type} [Zero V] (s : Sheet) (law : Str × Part → (ℕ → V) → (ℕ → V) → Prop) : Prop :=
  ∀ A B, Fits s.parts s.conns law A B → (∀ e ∈ s.free, A e.1 e.2.toNat = 0) → ∀ q ∈ s.parts, ∀ i < q.2.n, A q.1 i = 0

theorem Boxed.quiet [Zero V] {sheet' : Str → Sheet} (h : Boxed sheet cs D) (h' : Boxed sheet' cs D)
    (heq : ∀ x ∈ firstMentions cs, ∀ a b, Meets (sheet x) law a b ↔ Meets (sheet' x) law a b)
    (hlen : ∀ x ∈ firstMentions cs, (sheet x).free.length = (sheet' x).free.length)
    (hq : ∀ x ∈ firstMentions cs, Quiet (sheet' x) law) (hm : Quiet (Sheet.merge sheet cs D) law) :
    Quiet (Sheet.merge sheet' cs D) law := by
  intro A' B' hF' h0 q hq' i hi
  obtain ⟨x, hx, hq'⟩ := List.mem_flatMap.mp hq'
  haveI : Nonempty V := ⟨0⟩
  obtain ⟨A, B, hF, hp⟩ := h.glue (seen sheet' A') (seen sheet' B') (fun x hx => (heq x hx _ _).mpr (meets_box hF' hx).2) (h'.seen_joined hF')
  have hz := hm A B hF fun e he => by
    obtain ⟨e0, h1, rfl⟩ := List.mem_map.mp he
    rw [(hp e0 (h.ports _ (List.mem_append_right _ h1))).1, h'.seen_eq A' (h'.ports _ (List.mem_append_right _ h1))]
    exact h0 _ (List.mem_map.mpr ⟨e0, h1, rfl⟩)
  refine hq x hx A' B' (meets_box hF' hx).1 (fun e he => ?_) q hq' i hi
  obtain ⟨k, hk, hke⟩ := List.getElem_of_mem he
  have hb : (x, (k : ℤ)) ∈ boxPorts sheet cs := mem_boxPorts.mpr ⟨hx, k, by rw [hlen x hx]; exact hk, rfl⟩
  obtain ⟨k', -, -, p, hp', i', hi', e'⟩ := h.behind hb
  have h2 := hp _ hb
  have h3 := hz p (List.mem_flatMap.mpr ⟨x, hx, hp'⟩) i' hi'
  rw [e'] at h2
  have h4 : seen sheet' A' x k = A' e.1 e.2.toNat := by
    unfold seen
    rw [portAt_get sheet' x (by rw [List.getElem?_eq_getElem hk, hke])]
  rw [← h4]
  refine Eq.trans ?_ (h2.1.symm.trans ?_)
  · simp
  · simpa using h3

end PT
