import Verif.Spec.Device
import Verif.Proof.Accept
import Verif.Proof.Energy
import Verif.Proof.SimCore

/-! Proof support: a network is, as far as scattering goes, the list of the basic components in it. -/

namespace PT
open Spec Matrix

/-- Number of ports of a list of components. -/
def partsN (L : List Part) : ℕ := (L.map Part.n).sum

/-- Block number, component and local port of a port. -/
def partAt : List Part → ℕ → Option (ℕ × Part × ℕ)
  | [], _ => none
  | p :: L, i => if i < p.n then some (0, p, i) else (partAt L (i - p.n)).map fun q => (q.1 + 1, q.2)

/-- The device is the list of components, side by side. -/
structure Flat (d : Dev) (L : List Part) : Prop where
  n : d.comp.n = partsN L
  rS : ∀ wl, d.rS wl = blockMat (L.map fun p => (p.n, ofFin (p.S wl).re))
  iS : ∀ wl, d.iS wl = blockMat (L.map fun p => (p.n, ofFin (p.S wl).im))
  delay : ∀ v, d.delay v = blockVec (L.map fun p => (p.n, fun i => if i < p.n then p.delay v else 0))
  src : d.comp.src = L.flatMap fun p => p.comp.src
  det : d.comp.det = L.flatMap fun p => p.comp.det
  act : d.comp.act = L.flatMap fun p => p.comp.act

theorem blockMat_zero : ∀ (l : List (ℕ × (ℕ → ℕ → ℝ))) (i j : ℕ),
    (l.map Prod.fst).sum ≤ i ∨ (l.map Prod.fst).sum ≤ j → blockMat l i j = 0
  | [], _, _, _ => rfl
  | (n, M) :: l, i, j, h => by
    simp only [List.map_cons, List.sum_cons] at h
    unfold blockMat
    split
    · rw [if_neg (by omega)]
    · split
      · rfl
      · exact blockMat_zero l _ _ (by omega)

theorem blockMat_append : ∀ (l r : List (ℕ × (ℕ → ℕ → ℝ))),
    blockMat (l ++ r) = blockMat (((l.map Prod.fst).sum, blockMat l) :: r)
  | [], r => by
    funext i j
    show blockMat r i j = _
    unfold blockMat
    simp
    rw [blockMat.eq_def]
  | (n, M) :: l, r => by
    funext i j
    show blockMat ((n, M) :: (l ++ r)) i j = _
    conv_lhs => unfold blockMat
    rw [blockMat_append l r]
    conv_rhs => unfold blockMat
    simp only [List.map_cons, List.sum_cons]
    conv_lhs => unfold blockMat
    conv_rhs => enter [2, 2]; unfold blockMat
    by_cases h1 : i < n <;> by_cases h2 : j < n <;> by_cases h3 : i < n + (l.map Prod.fst).sum <;>
      by_cases h4 : j < n + (l.map Prod.fst).sum <;>
      simp only [h1, h2, h3, h4, if_true, if_false] <;> first | rfl | omega | skip
    all_goals
      have e1 : (i - n < (l.map Prod.fst).sum) ↔ (i < n + (l.map Prod.fst).sum) := by omega
      have e2 : (j - n < (l.map Prod.fst).sum) ↔ (j < n + (l.map Prod.fst).sum) := by omega
      simp only [e1, e2, h3, h4, if_true, if_false, Nat.sub_sub]

theorem blockVec_append : ∀ (l r : List (ℕ × (ℕ → ℝ))),
    blockVec (l ++ r) = blockVec (((l.map Prod.fst).sum, blockVec l) :: r)
  | [], r => by
    funext i
    show blockVec r i = _
    conv_rhs => unfold blockVec
    simp
  | (n, M) :: l, r => by
    funext i
    show blockVec ((n, M) :: (l ++ r)) i = _
    conv_lhs => unfold blockVec
    rw [blockVec_append l r]
    conv_rhs => unfold blockVec
    simp only [List.map_cons, List.sum_cons]
    conv_lhs => unfold blockVec
    conv_rhs => enter [2]; unfold blockVec
    by_cases h1 : i < n <;> by_cases h3 : i < n + (l.map Prod.fst).sum <;>
      simp only [h1, h3, if_true, if_false] <;> first | rfl | omega | skip
    all_goals
      have e1 : (i - n < (l.map Prod.fst).sum) ↔ (i < n + (l.map Prod.fst).sum) := by omega
      simp only [e1, h3, if_true, if_false, Nat.sub_sub]

theorem partsN_append (L R : List Part) : partsN (L ++ R) = partsN L + partsN R := by
  simp [partsN]

theorem sum_fst_map {α : Type} (L : List Part) (f : Part → α) :
    ((L.map fun p => (p.n, f p)).map Prod.fst).sum = partsN L := by
  simp [partsN, List.map_map, Function.comp_def]

theorem ofFin_zero {n : ℕ} (M : Matrix (Fin n) (Fin n) ℝ) (i j : ℕ) (h : n ≤ i ∨ n ≤ j) : ofFin M i j = 0 := by
  unfold ofFin
  rw [dif_neg (by omega)]

theorem part_n (p : Part) : p.comp.n = p.n := by cases p <;> rfl

theorem part_flat (p : Part) : Flat p.dev [p] := by
  refine ⟨?_, ?_, ?_, ?_, ?_, ?_, ?_⟩
  · show p.comp.n = _
    rw [part_n]; simp [partsN]
  · intro wl
    funext i j
    simp only [List.map_cons, List.map_nil, blockMat, Part.dev]
    split <;> split <;> first | rfl | exact ofFin_zero _ _ _ (by omega)
  · intro wl
    funext i j
    simp only [List.map_cons, List.map_nil, blockMat, Part.dev]
    split <;> split <;> first | rfl | exact ofFin_zero _ _ _ (by omega)
  · intro v
    funext i
    simp only [List.map_cons, List.map_nil, blockVec, Part.dev]
    split <;> rfl
  · simp [Part.dev]
  · simp [Part.dev]
  · simp [Part.dev]

/-- Devices side by side are their components side by side. -/
theorem netDev_flat (c : Comp) (l : List (Str × Dev)) (f : Dev → List Part)
    (h : ∀ p ∈ l, Flat p.2 (f p.2)) (hn : c.n = (l.map fun p => p.2.comp.n).sum)
    (hs : c.src = l.flatMap fun p => p.2.comp.src) (hd : c.det = l.flatMap fun p => p.2.comp.det)
    (ha : c.act = l.flatMap fun p => p.2.comp.act) : Flat (netDev c l) (l.flatMap fun p => f p.2) := by
  have hN : ∀ l : List (Str × Dev), (∀ p ∈ l, Flat p.2 (f p.2)) →
      (l.map fun p => p.2.comp.n).sum = partsN (l.flatMap fun p => f p.2) := by
    intro l h
    induction l with
    | nil => rfl
    | cons p l ih =>
      rw [List.flatMap_cons, partsN_append, List.map_cons, List.sum_cons, ih fun q hq => h q (by simp [hq]),
        (h p (by simp)).n]
  have hB : ∀ (l : List (Str × Dev)) (F : Dev → ℕ → ℕ → ℝ) (G : Part → ℕ → ℕ → ℝ), (∀ p ∈ l, Flat p.2 (f p.2)) →
      (∀ p ∈ l, F p.2 = blockMat ((f p.2).map fun q => (q.n, G q))) →
      blockMat (l.map fun p => (p.2.comp.n, F p.2)) =
        blockMat ((l.flatMap fun p => f p.2).map fun q => (q.n, G q)) := by
    intro l F G h hF
    induction l with
    | nil => rfl
    | cons p l ih =>
      rw [List.flatMap_cons, List.map_append, blockMat_append, sum_fst_map, List.map_cons,
        ← (h p (by simp)).n, hF p (by simp)]
      funext i j
      unfold blockMat
      rw [ih (fun q hq => h q (by simp [hq])) fun q hq => hF q (by simp [hq])]
  have hV : ∀ (l : List (Str × Dev)) (F : Dev → ℕ → ℝ) (G : Part → ℕ → ℝ), (∀ p ∈ l, Flat p.2 (f p.2)) →
      (∀ p ∈ l, F p.2 = blockVec ((f p.2).map fun q => (q.n, G q))) →
      blockVec (l.map fun p => (p.2.comp.n, F p.2)) =
        blockVec ((l.flatMap fun p => f p.2).map fun q => (q.n, G q)) := by
    intro l F G h hF
    induction l with
    | nil => rfl
    | cons p l ih =>
      rw [List.flatMap_cons, List.map_append, blockVec_append, sum_fst_map, List.map_cons,
        ← (h p (by simp)).n, hF p (by simp)]
      funext i
      unfold blockVec
      rw [ih (fun q hq => h q (by simp [hq])) fun q hq => hF q (by simp [hq])]
  have hM : ∀ (F G : Comp → List Bool), True → ∀ l : List (Str × Dev),
      (∀ p ∈ l, F p.2.comp = (f p.2).flatMap fun q => F q.comp) →
      (l.flatMap fun p => F p.2.comp) = (l.flatMap fun p => f p.2).flatMap fun q => F q.comp := by
    intro F _ _ l h
    induction l with
    | nil => rfl
    | cons p l ih =>
      rw [List.flatMap_cons, List.flatMap_cons, List.flatMap_append, h p (by simp),
        ih fun q hq => h q (by simp [hq])]
  refine ⟨?_, ?_, ?_, ?_, ?_, ?_, ?_⟩
  · show c.n = _
    rw [hn, hN l h]
  · intro wl
    exact hB l (fun d => d.rS wl) _ h fun p hp => (h p hp).rS wl
  · intro wl
    exact hB l (fun d => d.iS wl) _ h fun p hp => (h p hp).iS wl
  · intro v
    exact hV l (fun d => d.delay v) _ h fun p hp => (h p hp).delay v
  · show c.src = _
    rw [hs]; exact hM (·.src) (·.src) trivial l fun p hp => (h p hp).src
  · show c.det = _
    rw [hd]; exact hM (·.det) (·.det) trivial l fun p hp => (h p hp).det
  · show c.act = _
    rw [ha]; exact hM (·.act) (·.act) trivial l fun p hp => (h p hp).act

theorem dictGet_map {β γ : Type} (f : β → γ) (x : Str) : ∀ l : List (Str × β),
    dictGet x (l.map fun p => (p.1, f p.2)) = (dictGet x l).map f
  | [] => rfl
  | (k, v) :: l => by
    simp only [List.map_cons, dictGet]
    split
    · rfl
    · exact dictGet_map f x l

/-- The dictionary of the components of the modules. -/
def comps (modules : List (Str × Dev)) : Comps := modules.map fun p => (p.1, p.2.comp)

/-- The layout of a network of devices. -/
theorem mkDev_ok {name : Option Str} {modules : List (Str × Dev)} {cs : List Conn} {d : Dev}
    (hg : GoodConns cs) (h : mkDev name modules (cs.map Conn.text) = .ok d) :
    ∃ l : List (Str × Dev), (∀ p ∈ l, dictGet p.1 modules = some p.2) ∧
      Layout (comps modules) cs (l.map fun p => (p.1, { p.2.comp with name := some p.1 })) ∧
      mkNet name (comps modules) (cs.map Conn.text) = .ok d.comp ∧
      netBuffers name (l.map fun p => (p.1, { p.2.comp with name := some p.1 })) (cs.map Conn.text) = .ok d.comp ∧
      d = netDev d.comp l := by
  unfold mkDev at h
  cases hc : mkNet name (comps modules) (cs.map Conn.text) with
  | error e => rw [comps] at hc; rw [hc] at h; cases h
  | ok c =>
    have hc' := hc
    rw [comps] at hc
    rw [hc] at h
    simp only [Except.map, Except.ok.injEq] at h
    obtain ⟨l, hl, hb⟩ := mkNet_text_ok hg hc'
    rw [map_stripConn_text hg, usedNames_text hg] at h
    have hd : d.comp = c := by rw [← h]; rfl
    refine ⟨usedDevs modules (firstMentions cs), ?_, ?_⟩
    · intro p hp
      simp only [usedDevs, List.mem_filterMap, Option.map_eq_some_iff] at hp
      obtain ⟨x, -, e, he, rfl⟩ := hp
      exact he
    · have he : (usedDevs modules (firstMentions cs)).map (fun p => (p.1, { p.2.comp with name := some p.1 })) = l := by
        have key : ∀ (l : Comps), (∀ p ∈ l, ∃ d, dictGet p.1 (comps modules) = some d ∧
            p.2 = { d with name := some p.1 }) →
            (usedDevs modules (l.map Prod.fst)).map (fun p => (p.1, { p.2.comp with name := some p.1 })) = l := by
          intro l hl
          induction l with
          | nil => rfl
          | cons p l ih =>
            obtain ⟨e, he, hp⟩ := hl p (by simp)
            rw [comps, dictGet_map (fun q : Dev => q.comp)] at he
            cases hq : dictGet p.1 modules with
            | none => rw [hq] at he; cases he
            | some q =>
              rw [hq] at he
              simp only [Option.map_some, Option.some.injEq] at he
              have ih := ih fun q hq => hl q (by simp [hq])
              simp only [usedDevs, List.map_cons, List.filterMap_cons, hq, Option.map_some] at ih ⊢
              rw [ih, he, ← hp]
        rw [← hl.1]
        exact key l hl.2
      rw [he, hd]
      exact ⟨hl, rfl, hb, h.symm⟩

/-- A circuit is a list of components side by side, with connections. -/
theorem madeOf_flat {P : Part → Prop} {d : Dev} (h : MadeOf P d) : Clean d.comp ∧ ∃ L, (∀ p ∈ L, P p) ∧ Flat d L := by
  induction h with
  | part p hp hn =>
    refine ⟨?_, [p], by simpa using hp, part_flat p⟩
    cases p
    case term => exact .leaf 1 _ _ _ rfl rfl rfl (by decide)
    case source => exact .leaf 1 _ _ _ rfl rfl rfl (by decide)
    case detector => exact .leaf 1 _ _ _ rfl rfl rfl (by decide)
    all_goals exact passive_clean _ hn
  | named d x _ ih =>
    obtain ⟨hc, L, hL, hf⟩ := ih
    exact ⟨.named _ _ hc, L, hL, hf.n, hf.rS, hf.iS, hf.delay, hf.src, hf.det, hf.act⟩
  | net name modules cs d hm hg hu hc hk ih =>
    obtain ⟨l, hl, hlay, hnet, hb, hd⟩ := mkDev_ok hg hk
    refine ⟨?_, ?_⟩
    · refine .net name (comps modules) cs _ ?_ hg hu hc hnet
      intro p hp
      simp only [comps, List.mem_map] at hp
      obtain ⟨q, hq, rfl⟩ := hp
      exact (ih q hq).1
    · have hmem : ∀ p ∈ l, ∃ L, (∀ q ∈ L, P q) ∧ Flat p.2 L := fun p hp => (ih _ (dictGet_mem (hl p hp))).2
      have hch : ∀ e : Dev, ∃ L, ((∃ L, (∀ q ∈ L, P q) ∧ Flat e L) → (∀ q ∈ L, P q) ∧ Flat e L) := by
        intro e
        by_cases he : ∃ L, (∀ q ∈ L, P q) ∧ Flat e L
        · obtain ⟨L, hL⟩ := he
          exact ⟨L, fun _ => hL⟩
        · exact ⟨[], fun h => absurd h he⟩
      choose f hf using hch
      refine ⟨l.flatMap fun p => f p.2, ?_, ?_⟩
      · intro q hq
        rw [List.mem_flatMap] at hq
        obtain ⟨p, hp, hq⟩ := hq
        exact (hf p.2 (hmem p hp)).1 q hq
      · obtain ⟨-, -, hn, -, hs, hdt, ha, -⟩ := netBuffers_ok hb
        rw [hd]
        refine netDev_flat _ l f (fun p hp => (hf p.2 (hmem p hp)).2) ?_ ?_ ?_ ?_
        · rw [hn, width, List.map_map]; rfl
        · rw [hs, List.flatMap_map]
        · rw [hdt, List.flatMap_map]
        · rw [ha, List.flatMap_map]

end PT
