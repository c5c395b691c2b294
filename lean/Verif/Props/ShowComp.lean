import Verif.Model.Show
import Verif.Props.Topology

/-!
# C141: the printed form of components
-/

namespace PT
open Spec

/-- C141. The printed form of a component is its class, and its class and name if it has one; it determines both, whatever
characters the name contains (class names are identifiers, so they contain no parenthesis). -/
theorem C141_repr (cls cls' : Str) (name name' : Option Str) (h : '(' ∉ cls) (h' : '(' ∉ cls') :
    componentRepr cls none = cls ∧ (∀ n, componentRepr cls (some n) = cls ++ '(' :: ("name=\"".toList ++ n ++ ['"', ')'])) ∧
    (componentRepr cls name = componentRepr cls' name' ↔ cls = cls' ∧ name = name') := by
  have hs : ∀ (c : Str) n, componentRepr c (some n) = c ++ '(' :: ("name=\"".toList ++ n ++ ['"', ')']) := by
    intro c n
    unfold componentRepr
    have e : "(name=\"".toList = '(' :: "name=\"".toList := by decide
    have e' : "\")".toList = ['"', ')'] := by decide
    rw [e, e']
    simp only [List.append_assoc, List.cons_append]
  have key : ∀ {a b : Str} (x y : Str), '(' ∉ a → '(' ∉ b → a ++ '(' :: x = b ++ '(' :: y → a = b ∧ x = y := by
    intro a
    induction a with
    | nil =>
      intro b x y _ hb e
      cases b with
      | nil => exact ⟨rfl, (List.cons.inj e).2⟩
      | cons z b => exact absurd (by rw [← (List.cons.inj e).1]; simp) hb
    | cons z a ih =>
      intro b x y ha hb e
      cases b with
      | nil => exact absurd (by rw [(List.cons.inj e).1]; simp) ha
      | cons w b =>
        obtain ⟨e1, e2⟩ := List.cons.inj e
        obtain ⟨i1, i2⟩ := ih x y (fun h => ha (List.mem_cons_of_mem _ h)) (fun h => hb (List.mem_cons_of_mem _ h)) e2
        exact ⟨by rw [e1, i1], i2⟩
  refine ⟨rfl, hs cls, fun e => ?_, fun ⟨e, e'⟩ => by rw [e, e']⟩
  cases name with
  | none =>
    cases name' with
    | none => exact ⟨e, rfl⟩
    | some n =>
      rw [hs] at e
      exact absurd (by rw [show cls = _ from e]; simp) h
  | some n =>
    cases name' with
    | none =>
      rw [hs] at e
      exact absurd (by rw [← show _ = cls' from e]; simp) h'
    | some n' =>
      rw [hs, hs] at e
      obtain ⟨e1, e2⟩ := key _ _ h h' e
      rw [List.append_assoc, List.append_assoc] at e2
      have e3 := List.append_cancel_left e2
      rw [List.append_cancel_right e3]
      exact ⟨e1, rfl⟩

example : componentRepr "Waveguide".toList (some "wg".toList) = "Waveguide(name=\"wg\")".toList := by decide

/-- C141. The components of an accepted network print differently, whatever their classes are. -/
theorem C141_parts (name : Option Str) (modules : Comps) (cs : List Conn) (c : Comp) (hg : GoodConns cs)
    (h : mkNet name modules (cs.map Conn.text) = .ok c) (cls : Str → Str) (hcls : ∀ x, '(' ∉ cls x) :
    ∃ l, Layout modules cs l ∧ (l.map fun p => componentRepr (cls p.1) p.2.name).Nodup := by
  obtain ⟨l, hl, -⟩ := mkNet_text_ok hg h
  refine ⟨l, hl, ?_⟩
  have hn : ∀ p ∈ l, p.2.name = some p.1 := by
    intro p hp
    obtain ⟨d, -, he⟩ := hl.2 p hp
    rw [he]
  refine List.Nodup.map_on ?_ (List.Nodup.of_map _ (layout_nodup hl))
  intro p hp q hq e
  have h1 := ((C141_repr _ _ _ _ (hcls p.1) (hcls q.1)).2.2.mp e).2
  rw [hn p hp, hn q hq] at h1
  exact List.inj_on_of_nodup_map (layout_nodup hl) hp hq (Option.some.inj h1)

/-- Not vacuous: the ring of two components. -/
example : ∃ l, Layout ringModules ringConns l ∧
    (l.map fun p => componentRepr "Component".toList p.2.name).Nodup := by
  have hk : okAnd (mkNet none ringModules (ringConns.map Conn.text)) (fun _ => true) = true := by decide +kernel
  obtain ⟨c, hc, -⟩ := okAnd_iff.mp hk
  exact C141_parts none _ _ c (goodConns_dec (by decide)) hc (fun _ => "Component".toList) fun _ => by decide

end PT
