import Verif.Spec.RingChain
import Verif.Props.Crow
import Verif.Props.Nested
import Verif.Props.Lossy

/-!
# Ring networks of width two, on one sheet
-/

namespace PT
open Spec

/-- A device without its name. -/
def Dev.anon (d : Dev) : Dev := { d with comp := { d.comp with name := none } }

theorem dictGet_anon (x : Str) (l : List (Str × Dev)) :
    dictGet x (l.map fun q => (q.1, q.2.anon)) = (dictGet x l).map Dev.anon := by
  induction l with
  | nil => rfl
  | cons q l ih =>
    simp only [List.map_cons, dictGet]
    split
    · rfl
    · exact ih

theorem dictGet_comp (x : Str) (l : List (Str × Dev)) :
    dictGet x (l.map fun q => (q.1, q.2.comp)) = (dictGet x l).map Dev.comp := by
  induction l with
  | nil => rfl
  | cons q l ih =>
    simp only [List.map_cons, dictGet]
    split
    · rfl
    · exact ih

/-- The names the modules have do not matter: they get the names of the dictionary. -/
theorem mkDev_names (name : Option Str) (l l' : List (Str × Dev)) (conns : List Str)
    (h : (l.map fun q => (q.1, q.2.anon)) = l'.map fun q => (q.1, q.2.anon)) : mkDev name l conns = mkDev name l' conns := by
  have hd : ∀ x, (dictGet x l).map Dev.anon = (dictGet x l').map Dev.anon := fun x => by
    rw [← dictGet_anon, h, dictGet_anon]
  have hp : pickComps (l.map fun q => (q.1, q.2.comp)) = pickComps (l'.map fun q => (q.1, q.2.comp)) := by
    funext names
    unfold pickComps
    congr 1
    funext x
    rw [dictGet_comp, dictGet_comp]
    have := hd x
    cases h1 : dictGet x l with
    | none =>
      rw [h1] at this
      cases h2 : dictGet x l' with
      | none => rfl
      | some e => rw [h2] at this; cases this
    | some d =>
      rw [h1] at this
      cases h2 : dictGet x l' with
      | none => rw [h2] at this; cases this
      | some e =>
        rw [h2] at this
        simp only [Option.map_some, Option.some.injEq] at this
        have e1 : d.anon.comp = e.anon.comp := by rw [this]
        simp only [Option.map_some]
        have : ({ d.comp with name := some x } : Comp) = { e.comp with name := some x } :=
          congrArg (fun c : Comp => { c with name := some x }) e1
        rw [this]
  have hu : ∀ (names : List Str) (c : Comp), netDev c (usedDevs l names) = netDev c (usedDevs l' names) := by
    intro names c
    have ha : (usedDevs l names).map (fun q => q.2.anon) = (usedDevs l' names).map fun q => q.2.anon := by
      unfold usedDevs
      rw [List.map_filterMap, List.map_filterMap]
      congr 1
      funext x
      have := hd x
      simp only [Option.map_map, Function.comp_def] at this ⊢
      exact this
    have hb : ∀ {α : Type} (f : Dev → α), (∀ d, f d = f d.anon) →
        (usedDevs l names).map (fun q => f q.2) = (usedDevs l' names).map fun q => f q.2 := by
      intro α f hf
      have := congrArg (List.map f) ha
      simp only [List.map_map, Function.comp_def] at this
      simp only [← hf] at this
      exact this
    unfold netDev
    simp only [Dev.mk.injEq, true_and]
    refine ⟨?_, ?_, ?_⟩
    · funext wl
      exact congrArg blockMat (hb (fun d => (d.comp.n, d.rS wl)) fun _ => rfl)
    · funext wl
      exact congrArg blockMat (hb (fun d => (d.comp.n, d.iS wl)) fun _ => rfl)
    · funext v
      exact congrArg blockVec (hb (fun d => (d.comp.n, d.delay v)) fun _ => rfl)
  unfold mkDev mkNet
  rw [hp]
  simp only [hu]

namespace RingChain
open Crow

variable (n : ℕ) (k : ℕ → ℝ) (top btm : ℕ → Wg)

/-- What the names in a layer stand for. -/
noncomputable def leafSheet (i : ℕ) (x : Str) : Sheet :=
  if x = "mzi0".toList then .single (dcN i) (.coupler (k i)) else if x = "wg0".toList then .single (topN i) (top i).part
  else .single (btmN i) (btm i).part

def arrCs : List Conn :=
  [.inner ("wg0".toList) 0 ("mzi0".toList) 3, .inner ("wg1".toList) 0 ("mzi0".toList) 2, .outer ("mzi0".toList) 0 0, .outer ("mzi0".toList) 1 1, .outer ("wg0".toList) 1 2,
    .outer ("wg1".toList) 1 3]

def mixCs : List Conn :=
  [.inner ("mzi0".toList) 3 ("wg0".toList) 0, .inner ("mzi0".toList) 2 ("wg1".toList) 0, .outer ("mzi0".toList) 0 0, .outer ("mzi0".toList) 1 1, .outer ("wg0".toList) 1 2,
    .outer ("wg1".toList) 1 3]

def leafD : List (Str × ℤ) := [("mzi0".toList, 0), ("mzi0".toList, 1), ("wg0".toList, 1), ("wg1".toList, 1)]

/-- The ports of a layer. -/
def layerFree (i : ℕ) : List (Str × ℤ) := [(dcN i, 0), (dcN i, 1), (topN i, 1), (btmN i, 1)]

/-- A layer. -/
noncomputable def layerSheet (i : ℕ) : Sheet :=
  if i < n then ⟨[(topN i, (top i).part), (dcN i, .coupler (k i)), (btmN i, (btm i).part)],
    [.inner (topN i) 0 (dcN i) 3, .inner (btmN i) 0 (dcN i) 2], layerFree i⟩
  else ⟨[(dcN i, .coupler (k i)), (topN i, (top i).part), (btmN i, (btm i).part)],
    [.inner (dcN i) 3 (topN i) 0, .inner (dcN i) 2 (btmN i) 0], layerFree i⟩

theorem arr_sheet (i : ℕ) : Sheet.merge (leafSheet k top btm i) arrCs leafD =
    ⟨[(topN i, (top i).part), (dcN i, .coupler (k i)), (btmN i, (btm i).part)],
      [.inner (topN i) 0 (dcN i) 3, .inner (btmN i) 0 (dcN i) 2], layerFree i⟩ := rfl

theorem mix_sheet (i : ℕ) : Sheet.merge (leafSheet k top btm i) mixCs leafD =
    ⟨[(dcN i, .coupler (k i)), (topN i, (top i).part), (btmN i, (btm i).part)],
      [.inner (dcN i) 3 (topN i) 0, .inner (dcN i) 2 (btmN i) 0], layerFree i⟩ := rfl

theorem names_eq : mziN 0 = "mzi0".toList ∧ wgN 0 = "wg0".toList ∧ wgN 1 = "wg1".toList := by decide +kernel

theorem arr_eq : ringArrayCs 2 = arrCs := by
  obtain ⟨h1, h2, h3⟩ := names_eq
  have : ringArrayCs 2 = [.inner (wgN 0) 0 (mziN 0) 3, .inner (wgN 1) 0 (mziN 0) 2, .outer (mziN 0) 0 0, .outer (mziN 0) 1 1,
    .outer (wgN 0) 1 2, .outer (wgN 1) 1 3] := rfl
  rw [this, h1, h2, h3]
  rfl

theorem mix_eq : mixingRingCs 2 = mixCs := by
  obtain ⟨h1, h2, h3⟩ := names_eq
  have : mixingRingCs 2 = [.inner (mziN 0) 3 (wgN 0) 0, .inner (mziN 0) 2 (wgN 1) 0, .outer (mziN 0) 0 0, .outer (mziN 0) 1 1,
    .outer (wgN 0) 1 2, .outer (wgN 1) 1 3] := rfl
  rw [this, h1, h2, h3]
  rfl

theorem leaf_drawn (cs : List Conn) (hcs : cs = arrCs ∨ cs = mixCs) (i : ℕ) :
    ∃ d, mkDev none ([("wg0".toList, (top i).part), ("wg1".toList, (btm i).part), ("mzi0".toList, .coupler (k i))].map
        fun q => (q.1, q.2.dev)) (cs.map Conn.text) = .ok d ∧ Drawn d (.merge (leafSheet k top btm i) cs leafD) := by
  refine C96_built_declared none _ cs
    (fun x => if x = "mzi0".toList then dcN i else if x = "wg0".toList then topN i else btmN i) (leafSheet k top btm i) leafD
    ?_ ?_ ?_ ?_ ?_ ?_
  · intro q hq
    simp only [List.mem_cons, List.not_mem_nil, or_false] at hq
    rcases hq with rfl | rfl | rfl
    · exact ⟨by simp [Wg.part], rfl⟩
    · exact ⟨by simp [Wg.part], rfl⟩
    · exact ⟨by simp, rfl⟩
  · intro x hx
    have hx' : x = "wg0".toList ∨ x = "wg1".toList ∨ x = "mzi0".toList := by
      rcases hcs with rfl | rfl
      · have : x ∈ ["wg0".toList, "mzi0".toList, "wg1".toList] := hx
        simp only [List.mem_cons, List.not_mem_nil, or_false] at this
        rcases this with h | h | h
        · exact .inl h
        · exact .inr (.inr h)
        · exact .inr (.inl h)
      · have : x ∈ ["mzi0".toList, "wg0".toList, "wg1".toList] := hx
        simp only [List.mem_cons, List.not_mem_nil, or_false] at this
        rcases this with h | h | h
        · exact .inr (.inr h)
        · exact .inl h
        · exact .inr (.inl h)
    rcases hx' with rfl | rfl | rfl
    · exact ⟨_, rfl⟩
    · exact ⟨_, rfl⟩
    · exact ⟨_, rfl⟩
  · rcases hcs with rfl | rfl
    · exact goodConns_dec (by decide)
    · exact goodConns_dec (by decide)
  · rcases hcs with rfl | rfl
    · simp [arrCs]
    · simp [mixCs]
  · rcases hcs with rfl | rfl
    · show List.Perm _ [("wg0".toList, 0), ("wg0".toList, 1), ("mzi0".toList, 0), ("mzi0".toList, 1), ("mzi0".toList, 2),
        ("mzi0".toList, 3), ("wg1".toList, 0), ("wg1".toList, 1)]
      decide
    · show List.Perm _ [("mzi0".toList, 0), ("mzi0".toList, 1), ("mzi0".toList, 2), ("mzi0".toList, 3), ("wg0".toList, 0),
        ("wg0".toList, 1), ("wg1".toList, 0), ("wg1".toList, 1)]
      decide
  · rcases hcs with rfl | rfl
    · decide
    · decide

/-- Every layer is drawn as expected. -/
theorem layer_drawn (i : ℕ) : (i < n → ∃ d, ringArray 2 (ringCouplers k i) (ringWaveguides top btm i) = .ok d ∧
      Drawn d (layerSheet n k top btm i)) ∧
    (¬i < n → ∃ d, mixingRing 2 (ringCouplers k i) (ringWaveguides top btm i) = .ok d ∧ Drawn d (layerSheet n k top btm i)) := by
  obtain ⟨h1, h2, h3⟩ := names_eq
  constructor
  · intro hi
    obtain ⟨d, hd, hD⟩ := leaf_drawn k top btm arrCs (.inl rfl) i
    refine ⟨d, ?_, ?_⟩
    · rw [← hd, ← arr_eq, ← ringArray_text (by decide), ← h1, ← h2, ← h3]
      rfl
    · rw [arr_sheet] at hD
      rw [layerSheet, if_pos hi]
      exact hD
  · intro hi
    obtain ⟨d, hd, hD⟩ := leaf_drawn k top btm mixCs (.inr rfl) i
    refine ⟨d, ?_, ?_⟩
    · rw [← hd, ← mix_eq, ← mixingRing_text, ← h1, ← h2, ← h3]
      rfl
    · rw [mix_sheet] at hD
      rw [layerSheet, if_neg hi]
      exact hD

/-! ### The layers in a row -/

abbrev rowCs (n : ℕ) : List Conn := chainCs n (fun _ => 2) (fun _ => 2) layerN

noncomputable def ringSheet (x : Str) : Sheet := layerSheet n k top btm (numOf 5 x)

theorem layer_free (i : ℕ) : (layerSheet n k top btm i).free = layerFree i := by
  unfold layerSheet
  split <;> rfl

theorem layer_len (i : ℕ) : (layerSheet n k top btm i).free.length = 4 := by rw [layer_free]; rfl

theorem row_mentions (hn : 0 < n) : firstMentions (rowCs n) = (List.range (n + 1)).map layerN :=
  chain_mentions hn (layer_names n) fun _ _ => by decide

theorem row_boxPorts : boxPorts (ringSheet n k top btm) (rowCs n) = allPorts (firstMentions (rowCs n)) (fun x => 4) := by
  unfold boxPorts allPorts
  congr 1
  funext x
  rw [ringSheet, layer_len]

theorem row_open (hn : 0 < n) : (boxPorts (ringSheet n k top btm) (rowCs n)).filter (fun e => decide (e ∉ endpoints (rowCs n))) =
    [(layerN 0, 0), (layerN 0, 1), (layerN n, 2), (layerN n, 3)] := by
  rw [row_boxPorts, ← chain_open (sz := fun _ => 4) hn (layer_names n) fun _ _ => by decide]
  exact layers_open 2 n hn

theorem row_plan (hn : 0 < n) : Plan ((List.range (n + 1)).map layerN) (fun _ => 4) (rowCs n)
    [(layerN 0, 0), (layerN 0, 1), (layerN n, 2), (layerN n, 3)] := by
  have ho := row_open n (fun _ => 0) (fun _ => ⟨0, 0, 0, 1, 0, 0⟩) (fun _ => ⟨0, 0, 0, 1, 0, 0⟩) hn
  rw [row_boxPorts, row_mentions n hn] at ho
  refine ⟨lbl_nodup _ _, ?_, ?_, ?_⟩
  · intro x hx
    obtain ⟨i, -, rfl⟩ := List.mem_map.mp hx
    exact (lbl_attr (by decide) i).1
  · intro x hx i hi
    by_cases he : (x, (i : ℤ)) ∈ endpoints (rowCs n)
    · exact .inl he
    · right
      rw [← ho, List.mem_filter, mem_allPorts]
      exact ⟨⟨hx, i, hi, rfl⟩, by simpa using he⟩
  · rw [chain_count, sum_map_const _ _ 4 fun _ _ => rfl]
    simp
    omega

theorem row_outs : outs (rowCs n) = [] := by
  unfold rowCs chainCs
  rw [outs_flatMap, List.flatMap_eq_nil_iff]
  intro i _
  rw [outs_map, List.flatMap_eq_nil_iff]
  intro j _
  rfl

theorem row_ne (hn : 0 < n) : rowCs n ≠ [] := by
  intro h
  have := row_mentions n hn
  rw [h] at this
  rw [List.range_succ_eq_map] at this
  cases this

/-- The components of the whole ring network. -/
noncomputable def ringParts : List (Str × Part) := (List.range (n + 1)).flatMap fun i => (layerSheet n k top btm i).parts

/-- Its connections. -/
noncomputable def ringConns' : List Conn :=
  ((List.range n).flatMap fun i => [.inner (topN i) 1 (dcN (i + 1)) 0, .inner (btmN i) 1 (dcN (i + 1)) 1]) ++
    (List.range (n + 1)).flatMap fun i => (layerSheet n k top btm i).conns

def ringFree : List (Str × ℤ) := [(dcN 0, 0), (dcN 0, 1), (topN n, 1), (btmN n, 1)]

theorem ringSheet_layer (i : ℕ) : ringSheet n k top btm (layerN i) = layerSheet n k top btm i := by
  rw [ringSheet, numOf_layer]

theorem portAt_layer (i : ℕ) (j : ℤ) : portAt (ringSheet n k top btm) (layerN i, j) =
    ((layerFree i)[j.toNat]?).getD (layerN i, j) := by
  unfold portAt
  rw [ringSheet_layer, layer_free]

theorem row_wires : wires (ringSheet n k top btm) (rowCs n) =
    (List.range n).flatMap fun i => [.inner (topN i) 1 (dcN (i + 1)) 0, .inner (btmN i) 1 (dcN (i + 1)) 1] := by
  unfold wires rowCs chainCs
  rw [List.filterMap_flatMap]
  apply List.flatMap_congr
  intro i _
  rw [List.filterMap_map]
  show List.filterMap _ [0, 1] = _
  simp only [List.filterMap_cons, List.filterMap_nil, Function.comp_apply, portAt_layer]
  rfl

theorem row_merge (hn : 0 < n) : Sheet.merge (ringSheet n k top btm) (rowCs n)
      ((boxPorts (ringSheet n k top btm) (rowCs n)).filter fun e => decide (e ∉ endpoints (rowCs n))) =
    ⟨ringParts n k top btm, ringConns' n k top btm, ringFree n⟩ := by
  unfold Sheet.merge
  rw [row_open n k top btm hn, row_wires, row_mentions n hn, List.flatMap_map, List.flatMap_map]
  simp only [ringSheet_layer]
  congr 1
  simp only [List.map_cons, List.map_nil, portAt_layer]
  rfl

/-- No two components of the network have the same name. -/
theorem ring_nodup : ("source".toList :: (ringParts n k top btm).map Prod.fst ++ ["through".toList, fin1 n, fin2 n]).Nodup := by
  have hc := (Crow.closed (n + 1) k top btm).names
  have h1 : (ringParts n k top btm).Perm ((List.range (n + 1)).flatMap fun i => [(dcN i, Part.coupler (k i))] ++
      [(topN i, (top i).part), (btmN i, (btm i).part)]) := by
    refine List.Perm.flatMap_left _ fun i _ => ?_
    unfold layerSheet
    split
    · exact List.Perm.swap _ _ _
    · exact List.Perm.refl _
  have h2 := h1.trans (List.flatMap_append_perm _ _ _).symm
  rw [← List.map_eq_flatMap] at h2
  have hsub : ([("source".toList, Part.source), ("through".toList, .detector), ("drop".toList, .detector), ("add".toList, .detector)] ++
      (((List.range (n + 1)).map fun i => (dcN i, Part.coupler (k i))) ++
        (List.range (n + 1)).flatMap fun i => [(topN i, (top i).part), (btmN i, (btm i).part)])).Sublist
      (crowModules (n + 1) k top btm) := by
    rw [crowModules, List.append_assoc]
    refine List.Sublist.append_left (List.Sublist.append_right (List.Sublist.map _ ?_) _) _
    rw [List.range_succ (n := n + 1)]
    exact List.sublist_append_left _ _
  have hnd := hc.sublist (hsub.map Prod.fst)
  rw [List.map_append] at hnd
  have h3 := h2.map Prod.fst
  have h4 : ("source".toList :: (ringParts n k top btm).map Prod.fst ++ ["through".toList, fin1 n, fin2 n]).Perm
      (["source".toList, "through".toList, "drop".toList, "add".toList] ++ (ringParts n k top btm).map Prod.fst) := by
    refine List.Perm.cons _ (List.perm_append_comm.trans ?_)
    refine List.Perm.append_right _ (List.Perm.cons _ ?_)
    rcases fin_cases n with ⟨e1, e2⟩ | ⟨e1, e2⟩ <;> rw [e1, e2]
    exact List.Perm.swap _ _ _
  exact (h4.trans (List.Perm.append_left _ h3)).nodup_iff.mpr hnd

theorem ring_drawn (capacity : ℕ) (hc : 2 ≤ capacity) (hn : n = capacity / 2) :
    ∃ d, ring 2 capacity (ringCouplers k) (ringWaveguides top btm) = .ok d ∧
      Drawn d ⟨ringParts n k top btm, ringConns' n k top btm, ringFree n⟩ := by
  subst hn
  have hn : 0 < capacity / 2 := by omega
  have hlay : ∀ i, ∃ d, (i < capacity / 2 → ringArray 2 (ringCouplers k i) (ringWaveguides top btm i) = .ok d) ∧
      (¬i < capacity / 2 → mixingRing 2 (ringCouplers k i) (ringWaveguides top btm i) = .ok d) ∧
      Drawn d (layerSheet (capacity / 2) k top btm i) := by
    intro i
    obtain ⟨h1, h2⟩ := layer_drawn (capacity / 2) k top btm i
    by_cases hi : i < capacity / 2
    · obtain ⟨d, hd, hD⟩ := h1 hi
      exact ⟨d, fun _ => hd, fun h => absurd hi h, hD⟩
    · obtain ⟨d, hd, hD⟩ := h2 hi
      exact ⟨d, fun h => absurd h hi, fun _ => hd, hD⟩
  choose D hD1 hD2 hD3 using hlay
  have hplan := row_plan (capacity / 2) hn
  have hnm : ∀ a i p, Conn.outer a i p ∉ rowCs (capacity / 2) := by
    intro a i p h
    have := mem_outs.mpr h
    rw [row_outs] at this
    cases this
  obtain ⟨d, hd, hDr⟩ := C96_built none ((List.range (capacity / 2 + 1)).map fun i => (layerN i, D i)) (rowCs (capacity / 2))
    (ringSheet (capacity / 2) k top btm) (by
      intro q hq
      obtain ⟨i, -, rfl⟩ := List.mem_map.mp hq
      show Drawn (D i) (ringSheet _ k top btm (layerN i))
      rw [ringSheet_layer]
      exact hD3 i) (by
      intro x hx
      rw [row_mentions _ hn] at hx
      obtain ⟨i, hi, rfl⟩ := List.mem_map.mp hx
      refine ⟨D i, dictGet_of_mem ?_ (List.mem_map.mpr ⟨i, hi, rfl⟩)⟩
      rw [List.map_map]
      exact lbl_nodup _ _) (hplan.goodConns fun a i p h => absurd h (hnm a i p)) (row_ne _ hn) (row_outs _)
    (List.nodup_append'.mp hplan.all_nodup).1 (by
      intro e he
      rw [row_boxPorts, row_mentions _ hn]
      exact hplan.perm.mem_iff.mp (List.mem_append_left _ he)) (by
      rw [row_mentions _ hn, List.flatMap_map]
      simp only [ringSheet_layer]
      have := ring_nodup (capacity / 2) k top btm
      exact (List.nodup_cons.mp (List.nodup_append'.mp this).1).2)
  rw [row_merge _ k top btm hn] at hDr
  refine ⟨d, ?_, hDr⟩
  unfold ring
  have hl : mapE (fun i => (ringArray 2 (ringCouplers k i) (ringWaveguides top btm i)).map fun d => (layerN i, d))
      (List.range (capacity / 2)) = .ok ((List.range (capacity / 2)).map fun i => (layerN i, D i)) := by
    have := mapE_map_ok (f := fun i => (ringArray 2 (ringCouplers k i) (ringWaveguides top btm i)).map fun d => (layerN i, d))
      (g := id) (h := fun i => (layerN i, D i)) (List.range (capacity / 2)) (by
        intro m hm
        simp only [id, hD1 m (List.mem_range.mp hm), Except.map])
    simpa using this
  rw [if_neg (by decide), hl, hD2 _ (lt_irrefl _)]
  show mkDev none _ _ = _
  rw [← hd, layers_text, List.range_succ, List.map_append]
  rfl

/-! ### With the terms -/

def termNs : List Str := ["term_in".toList, "term_pass".toList, "term_drop".toList, "term_add".toList]

noncomputable def closedSheet (x : Str) : Sheet :=
  if x = ringCls then ⟨ringParts n k top btm, ringConns' n k top btm, ringFree n⟩
  else if x = "term_in".toList then .single "source".toList .source
  else if x = "term_pass".toList then .single "through".toList .detector
  else if x = "term_drop".toList then .single (fin1 n) .detector
  else .single (fin2 n) .detector

/-- The components of the terminated network. -/
noncomputable def chainParts : List (Str × Part) :=
  ("source".toList, .source) :: (ringParts n k top btm ++ [("through".toList, .detector), (fin1 n, .detector), (fin2 n, .detector)])

/-- Its connections. -/
noncomputable def chainConns : List Conn :=
  [.inner "source".toList 0 (dcN 0) 0, .inner "through".toList 0 (dcN 0) 1, .inner (fin1 n) 0 (topN n) 1,
    .inner (fin2 n) 0 (btmN n) 1] ++ ringConns' n k top btm

theorem closed_merge : Sheet.merge (closedSheet n k top btm) (termLinks ringCls termNs) [] =
    ⟨chainParts n k top btm, chainConns n k top btm, []⟩ := by
  have hm : firstMentions (termLinks ringCls termNs) =
    ["term_in".toList, ringCls, "term_pass".toList, "term_drop".toList, "term_add".toList] := by decide
  unfold Sheet.merge
  rw [hm]
  simp only [List.flatMap_cons, List.flatMap_nil]
  refine congrArg₂ (fun a b => Sheet.mk a b []) ?_ ?_
  · rfl
  · unfold chainConns
    refine congrArg₂ (· ++ ·) rfl ?_
    show [] ++ (ringConns' n k top btm ++ ([] ++ ([] ++ ([] ++ [])))) = _
    simp

theorem chain_names_nodup : ((chainParts n k top btm).map Prod.fst).Nodup := by
  have := ring_nodup n k top btm
  unfold chainParts
  rw [List.map_cons, List.map_append]
  exact this

theorem closed_drawn (newName : Str) (d : Dev) (hd : Drawn d ⟨ringParts n k top btm, ringConns' n k top btm, ringFree n⟩) :
    ∃ d', termDev newName ringCls d notebookTerms = .ok d' ∧
      Drawn d' ⟨chainParts n k top btm, chainConns n k top btm, []⟩ := by
  obtain ⟨d', hd', hD⟩ := C96_built (some newName) [(ringCls, d), ("term_in".toList, Part.source.dev),
      ("term_pass".toList, Part.detector.dev), ("term_drop".toList, Part.detector.dev), ("term_add".toList, Part.detector.dev)]
    (termLinks ringCls termNs) (closedSheet n k top btm) (by
      intro q hq
      simp only [List.mem_cons, List.not_mem_nil, or_false] at hq
      rcases hq with rfl | rfl | rfl | rfl | rfl
      · exact hd
      · exact .part _ _ (by simp)
      · exact .part _ _ (by simp)
      · exact .part _ _ (by simp)
      · exact .part _ _ (by simp)) (by
      intro x hx
      have hx' : x ∈ ["term_in".toList, ringCls, "term_pass".toList, "term_drop".toList, "term_add".toList] := hx
      simp only [List.mem_cons, List.not_mem_nil, or_false] at hx'
      rcases hx' with rfl | rfl | rfl | rfl | rfl
      · exact ⟨_, rfl⟩
      · exact ⟨_, rfl⟩
      · exact ⟨_, rfl⟩
      · exact ⟨_, rfl⟩
      · exact ⟨_, rfl⟩) (goodConns_dec (by decide)) (by simp [termLinks, termNs]) rfl (by decide) (by
      show ∀ e ∈ endpoints (termLinks ringCls termNs), e ∈ [("term_in".toList, 0), (ringCls, 0), (ringCls, 1), (ringCls, 2), (ringCls, 3),
        ("term_pass".toList, 0), ("term_drop".toList, 0), ("term_add".toList, 0)]
      decide) (by
      have := congrArg Sheet.parts (closed_merge n k top btm)
      have h2 := chain_names_nodup n k top btm
      rw [← show (Sheet.merge (closedSheet n k top btm) (termLinks ringCls termNs) []).parts = chainParts n k top btm from this] at h2
      exact h2)
  have ho : (boxPorts (closedSheet n k top btm) (termLinks ringCls termNs)).filter
      (fun e => decide (e ∉ endpoints (termLinks ringCls termNs))) = [] := by
    show List.filter _ [("term_in".toList, 0), (ringCls, 0), (ringCls, 1), (ringCls, 2), (ringCls, 3),
        ("term_pass".toList, 0), ("term_drop".toList, 0), ("term_add".toList, 0)] = []
    decide
  rw [ho, closed_merge] at hD
  refine ⟨d', ?_, hD⟩
  rw [← hd']
  unfold termDev
  rw [termConns_text]
  exact mkDev_names _ _ _ _ rfl

end RingChain
end PT
