import Verif.Props.Checkpoint
import Verif.Model.Shelf

/-!
# C131: components under several names
-/

namespace PT
open Spec

theorem history_objs (s : Shelf) (δs : List (ℕ → (Str → ℝ) × (ℕ → ℕ → ℕ → ℝ))) :
    (δs.foldl Shelf.train s).names = s.names ∧ ∀ i, (δs.foldl Shelf.train s).objs i = (δs.map fun δ => δ i).foldl Obj.train (s.objs i) := by
  induction δs generalizing s with
  | nil => exact ⟨rfl, fun _ => rfl⟩
  | cons δ δs ih => exact ih (s.train δ)

/-- A component under several names is trained as one: whatever the optimizer does, all its names behave the same. -/
theorem C131_tied (s : Shelf) (δs : List (ℕ → (Str → ℝ) × (ℕ → ℕ → ℕ → ℝ))) (x y : Str) (i : ℕ) (hx : (x, i) ∈ s.names) (hy : (y, i) ∈ s.names) :
    ∃ o, (x, o) ∈ (δs.foldl Shelf.train s).components ∧ (y, o) ∈ (δs.foldl Shelf.train s).components := by
  obtain ⟨h1, -⟩ := history_objs s δs
  refine ⟨(δs.foldl Shelf.train s).objs i, ?_, ?_⟩
  · exact List.mem_map.2 ⟨(x, i), by rw [h1]; exact hx, rfl⟩
  · exact List.mem_map.2 ⟨(y, i), by rw [h1]; exact hy, rfl⟩

theorem mirror_exists (R : ℝ) (h0 : 0 ≤ R) (h1 : R ≤ 1) (t : Bool) : ∃ o, (Call.mirror R t).new = .ok o := by
  have hb : ∃ q, boundedAttr ['R'] R t = .ok q := by
    unfold boundedAttr boundedNew
    rw [if_neg (by norm_num), if_neg (by simp [h0, h1])]
    exact ⟨_, rfl⟩
  obtain ⟨q, hq⟩ := hb
  obtain ⟨w, rfl, -⟩ := boundedAttr_ok hq
  obtain ⟨o, h, -⟩ := blank_assign .mirror [(['R'], .bounded w 0 1, t)] (by simp only [List.forall_mem_cons]; decide) (by simp)
  exact ⟨o, by simp only [Call.new, hq]; exact h⟩

theorem mirror_apart (R : ℝ) (h0 : 0 < R) (h1 : R < 1) (o : Obj) (h : (Call.mirror R true).new = .ok o) :
    (o.train (fun _ => 1, fun _ _ _ => 0)).dev ≠ (o.train (fun _ => 0, fun _ _ _ => 0)).dev := by
  have key : ∀ s : ℝ, ∃ k, (o.train (fun _ => s, fun _ _ _ => 0)).dev = .ok (Part.mirror k).dev ∧ 0 < k ∧ k < 1 ∧ k / (1 - k) = R / (1 - R) * Real.exp s := by
    intro s
    obtain ⟨p, e, hs, -, -, -, hm⟩ := trained_part _ o h [(fun _ => s, fun _ _ _ => 0)]
    have hp : ∃ k, p = .mirror k := by
      change SameButTrained (.mirror R) p at hs
      cases hs with
      | refl => exact ⟨_, rfl⟩
      | mirror => exact ⟨_, rfl⟩
    obtain ⟨k, rfl⟩ := hp
    obtain ⟨a, b, c⟩ := (show OddsMove R _ k from hm) h0 h1
    refine ⟨k, e, a, b, ?_⟩
    rw [c]
    simp [added]
  obtain ⟨k, e, a, b, c⟩ := key 1
  obtain ⟨k', e', a', b', c'⟩ := key 0
  rw [e, e']
  intro he
  have he : (Part.mirror k).dev = (Part.mirror k').dev := by injection he
  have h00 : ofFin ((Part.mirror k).S 0).re 0 0 = ofFin ((Part.mirror k').S 0).re 0 0 := congrArg (fun d : Dev => d.rS 0 0 0) he
  have val : ∀ k, ofFin ((Part.mirror k).S 0).re 0 0 = √k := by
    intro k
    simp [ofFin, Part.S, Part.n, mirrorS, SMat.setIm, SMat.setRe, SMat.zero]
  rw [val, val] at h00
  have hk : k = k' := by rw [← Real.sq_sqrt a.le, ← Real.sq_sqrt a'.le, h00]
  subst hk
  have hpos : 0 < R / (1 - R) := div_pos h0 (by linarith)
  have : Real.exp 1 = Real.exp 0 := mul_left_cancel₀ hpos.ne' (c.symm.trans c')
  exact absurd (Real.exp_injective this) one_ne_zero

/-- The documentation calls them copies, but they are not: two mirrors can be trained to different reflectivities, one mirror with two names
cannot. -/
theorem C131_violation (R : ℝ) (h0 : 0 < R) (h1 : R < 1) (x y : Str) : ∃ o, (Call.mirror R true).new = .ok o ∧
    ∃ δ δ' : (Str → ℝ) × (ℕ → ℕ → ℕ → ℝ), ∀ (s : Shelf), s.names = [(x, 0), (y, 0)] → s.objs 0 = o →
      ∀ δs : List (ℕ → (Str → ℝ) × (ℕ → ℕ → ℕ → ℝ)),
        (δs.foldl Shelf.train s).components.map (fun p => (p.1, p.2.dev)) ≠ [(x, (o.train δ).dev), (y, (o.train δ').dev)] := by
  obtain ⟨o, ho⟩ := mirror_exists R h0.le h1.le true
  refine ⟨o, ho, (fun _ => 1, fun _ _ _ => 0), (fun _ => 0, fun _ _ _ => 0), fun s hs _ δs he => mirror_apart R h0 h1 o ho ?_⟩
  unfold Shelf.components at he
  rw [(history_objs s δs).1, hs] at he
  simp only [List.map_cons, List.map_nil, List.cons.injEq, Prod.mk.injEq, true_and, and_true] at he
  exact he.1.symm.trans he.2

theorem store_store (x y : EReal) (v : AVal) : (v.store x).store y = v.store y := by cases v <;> rfl

theorem loaded_of_load {o r : Obj} {s : Saved} (h : o.load s = .ok r) : r = o.loaded s ∧ (∀ k, (o.saved.entries k).isSome = (s.entries k).isSome) ∧
    o.weights.map MmiWeights.shape = s.weights.map MmiWeights.shape := by
  unfold Obj.load at h
  split_ifs at h with hc
  exact ⟨by cases h; rfl, hc⟩

/-- What is loaded last counts. -/
theorem load_load {o r : Obj} {s : Saved} (h : o.load s = .ok r) (s' : Saved) : r.load s' = o.load s' := by
  obtain ⟨rfl, h1, h2⟩ := loaded_of_load h
  have e1 : ∀ k, ((o.loaded s).saved.entries k).isSome = (o.saved.entries k).isSome := by
    intro k
    simp only [Obj.saved, Obj.loaded]
    cases o.attrs.params k with
    | some v => rfl
    | none =>
      cases o.attrs.buffers k with
      | some v => rfl
      | none => rfl
  have e2 : (o.loaded s).weights.map MmiWeights.shape = o.weights.map MmiWeights.shape := h2.symm
  have e3 : (o.loaded s).loaded s' = o.loaded s' := by
    simp only [Obj.loaded, Option.map_map, Function.comp_def, store_store]
  unfold Obj.load
  split_ifs with a b b
  · exact congrArg Except.ok e3
  · exact absurd ⟨fun k => (e1 k).symm.trans (a.1 k), e2.symm.trans a.2⟩ b
  · exact absurd ⟨fun k => (e1 k).trans (b.1 k), e2.trans b.2⟩ a
  · rfl

theorem loadInto_ok (os : List (Str × Saved)) (base : ℕ → Obj) : ∀ (l : List (Str × ℕ)) (objs : ℕ → Obj),
    (∀ i s, (objs i).load s = (base i).load s) →
    (∀ p ∈ l, ∃ q, os.find? (fun q => q.1 == p.1) = some q ∧ ∃ r, (base p.2).load q.2 = .ok r) →
    ∃ objs', loadInto os l objs = .ok objs' ∧ (∀ i, i ∉ l.map Prod.snd → objs' i = objs i) ∧
      ∀ pre x i post, l = pre ++ (x, i) :: post → i ∉ post.map Prod.snd → ∃ q, os.find? (fun q => q.1 == x) = some q ∧
        (base i).load q.2 = .ok (objs' i)
  | [], objs, _, _ => ⟨objs, rfl, fun _ _ => rfl, fun pre x i post h => by cases pre <;> cases h⟩
  | (x, i) :: l, objs, hb, hl => by
    obtain ⟨q, hq, r, hr⟩ := hl _ List.mem_cons_self
    dsimp only at hq hr
    obtain ⟨objs', h1, h2, h3⟩ := loadInto_ok os base l (Function.update objs i r) (fun j s => by
      by_cases hj : j = i
      · subst hj
        rw [Function.update_self]
        exact load_load hr s
      · rw [Function.update_of_ne hj]
        exact hb j s) fun p hp => hl p (List.mem_cons_of_mem _ hp)
    refine ⟨objs', ?_, ?_, ?_⟩
    · rw [loadInto, hq]
      dsimp only
      rw [hb, hr]
      exact h1
    · intro j hj
      rw [List.map_cons, List.mem_cons, not_or] at hj
      rw [h2 j hj.2, Function.update_of_ne hj.1]
    · intro pre y j post e hp
      cases pre with
      | nil =>
        rw [List.nil_append] at e
        cases e
        exact ⟨q, hq, by rw [h2 i hp, Function.update_self]; exact hr⟩
      | cons a pre =>
        rw [List.cons_append] at e
        have e' : l = pre ++ (y, j) :: post := (List.cons.inj e).2
        exact h3 pre y j post e' hp

theorem find_saved (os : List (Str × Obj)) (hn : (os.map Prod.fst).Nodup) : ∀ p ∈ os, (saveNet os).find? (fun q => q.1 == p.1) = some (p.1, p.2.saved) := by
  induction os with
  | nil => intro p hp; cases hp
  | cons q os ih =>
    intro p hp
    rw [List.map_cons, List.nodup_cons] at hn
    show List.find? (fun x => x.1 == p.1) ((q.1, q.2.saved) :: saveNet os) = _
    rw [List.find?_cons]
    by_cases hq : q.1 = p.1
    · rcases List.mem_cons.1 hp with rfl | hp
      · simp
      · exact absurd (hq ▸ List.mem_map_of_mem hp) hn.1
    · have : (q.1 == p.1) = false := by simpa using hq
      dsimp only
      rw [this]
      rcases List.mem_cons.1 hp with rfl | hp
      · exact absurd rfl hq
      · exact ih hn.2 p hp

/-- A saved state in which the names have different values is loaded without an error; the last name of a component decides about all its
names. -/
theorem C131_loaded (s : Shelf) (os : List (Str × Obj)) (hn : (os.map Prod.fst).Nodup) (he : ∀ x, x ∈ os.map Prod.fst ↔ x ∈ s.names.map Prod.fst)
    (hk : ∀ x i o, (x, i) ∈ s.names → (x, o) ∈ os → ∃ (c c' : Call) (m m' : Obj) (δs δs' : List ((Str → ℝ) × (ℕ → ℕ → ℕ → ℝ))), Kin c c' ∧
      c.new = .ok m ∧ c'.new = .ok m' ∧ o = δs.foldl Obj.train m ∧ s.objs i = δs'.foldl Obj.train m') :
    ∃ s', s.load (saveNet os) = .ok s' ∧ s'.names = s.names ∧ ∀ pre x i post, s.names = pre ++ (x, i) :: post → i ∉ post.map Prod.snd →
      ∀ o, (x, o) ∈ os → (s'.objs i).dev = o.dev := by
  have base : ∀ x i o, (x, i) ∈ s.names → (x, o) ∈ os → ∃ r, (s.objs i).load o.saved = .ok r ∧ r.dev = o.dev := by
    intro x i o h1 h2
    obtain ⟨c, c', m, m', δs, δs', k1, k2, k3, rfl, k5⟩ := hk x i o h1 h2
    rw [k5]
    exact C130_restores_partial c c' k1 m m' k2 k3 δs δs'
  obtain ⟨objs', h1, -, h3⟩ := loadInto_ok (saveNet os) s.objs s.names s.objs (fun _ _ => rfl) (by
    intro p hp
    obtain ⟨⟨x, o⟩, ho, e⟩ := List.mem_map.1 ((he p.1).2 (List.mem_map_of_mem hp))
    obtain ⟨r, hr, -⟩ := base p.1 p.2 o hp (by rw [← e]; exact ho)
    refine ⟨_, by rw [← e]; exact find_saved os hn _ ho, r, hr⟩)
  refine ⟨{ s with objs := objs' }, ?_, rfl, ?_⟩
  · unfold Shelf.load
    rw [if_pos, h1]
    · rfl
    · intro x hx
      refine (he x).1 ?_
      unfold saveNet at hx
      rwa [List.map_map] at hx
  · intro pre x i post e hp o ho
    obtain ⟨q, q1, q2⟩ := h3 pre x i post e hp
    rw [find_saved os hn _ ho] at q1
    cases q1
    obtain ⟨r, r1, r2⟩ := base x i o (by rw [e]; simp) ho
    rw [r1] at q2
    cases q2
    exact r2

/-- So the two mirrors of `C131_violation`, trained apart and saved, are loaded into one mirror with two names, which then is the second. -/
theorem C131_overwritten (R : ℝ) (h0 : 0 < R) (h1 : R < 1) (x y : Str) (hxy : x ≠ y) : ∃ o, (Call.mirror R true).new = .ok o ∧
    ∃ δ δ' : (Str → ℝ) × (ℕ → ℕ → ℕ → ℝ), (o.train δ).dev ≠ (o.train δ').dev ∧ ∀ (s : Shelf), s.names = [(x, 0), (y, 0)] → s.objs 0 = o →
      ∃ s', s.load (saveNet [(x, o.train δ), (y, o.train δ')]) = .ok s' ∧
        s'.components.map (fun p => (p.1, p.2.dev)) = [(x, (o.train δ').dev), (y, (o.train δ').dev)] := by
  obtain ⟨o, ho⟩ := mirror_exists R h0.le h1.le true
  refine ⟨o, ho, _, _, mirror_apart R h0 h1 o ho, fun s hs hs0 => ?_⟩
  obtain ⟨s', h1, h2, h3⟩ := C131_loaded s [(x, o.train (fun _ => 1, fun _ _ _ => 0)), (y, o.train (fun _ => 0, fun _ _ _ => 0))]
    (by simpa using hxy) (by intro z; rw [hs]; simp) (by
      intro z i u hz hu
      rw [hs] at hz
      have hi : i = 0 := by
        simp only [List.mem_cons, Prod.mk.injEq, List.not_mem_nil, or_false] at hz
        rcases hz with h | h <;> exact h.2
      subst hi
      have hu : ∃ δ, u = o.train δ := by
        simp only [List.mem_cons, Prod.mk.injEq, List.not_mem_nil, or_false] at hu
        rcases hu with h | h <;> exact ⟨_, h.2⟩
      obtain ⟨δ, rfl⟩ := hu
      exact ⟨_, _, o, o, [δ], [], .mirror R R true true, ho, ho, rfl, hs0⟩)
  refine ⟨s', h1, ?_⟩
  have h4 := h3 [(x, 0)] y 0 [] (by rw [hs]; rfl) (by simp) _ (List.mem_cons_of_mem _ List.mem_cons_self)
  unfold Shelf.components
  rw [h2, hs]
  simp only [List.map_cons, List.map_nil, h4]

/-- The other way around nothing is lost: the state of a network in which components have several names can be loaded into one with separate
components. -/
theorem C131_separate_partial (s : Shelf) (os : List (Str × Obj)) (hn : (s.names.map Prod.fst).Nodup)
    (hk : List.Forall₂ (fun p q : Str × Obj => p.1 = q.1 ∧ ∃ (c c' : Call) (o o' : Obj) (δs δs' : List ((Str → ℝ) × (ℕ → ℕ → ℕ → ℝ))), Kin c c' ∧
      c.new = .ok o ∧ c'.new = .ok o' ∧ p.2 = δs.foldl Obj.train o ∧ q.2 = δs'.foldl Obj.train o') s.components os) :
    ∃ rs, loadNet os (saveNet s.components) = .ok rs ∧ rs.map (fun p => (p.1, p.2.dev)) = s.components.map fun p => (p.1, p.2.dev) :=
  C130_network_partial s.components os (by
    unfold Shelf.components
    rw [List.map_map]
    exact hn) hk

/-- The mirrors of the Michelson cavity of notebook 03, as the text there says: whatever the training, they are alike. -/
example (m : Obj) (δs : List (ℕ → (Str → ℝ) × (ℕ → ℕ → ℕ → ℝ))) :
    ∃ o, ("m_west".toList, o) ∈ (δs.foldl Shelf.train ⟨[("m_west".toList, 0), ("m_north".toList, 0)], fun _ => m⟩).components ∧
      ("m_north".toList, o) ∈ (δs.foldl Shelf.train ⟨[("m_west".toList, 0), ("m_north".toList, 0)], fun _ => m⟩).components :=
  C131_tied _ δs _ _ 0 (by simp) (by simp)

example : ∃ o, (Call.mirror (9 / 10) true).new = .ok o ∧ ∃ δ δ' : (Str → ℝ) × (ℕ → ℕ → ℕ → ℝ), (o.train δ).dev ≠ (o.train δ').dev ∧
    ∃ s', (⟨[("m_west".toList, 0), ("m_north".toList, 0)], fun _ => o⟩ : Shelf).load
        (saveNet [("m_west".toList, o.train δ), ("m_north".toList, o.train δ')]) = .ok s' ∧
      s'.components.map (fun p => (p.1, p.2.dev)) = [("m_west".toList, (o.train δ').dev), ("m_north".toList, (o.train δ').dev)] := by
  obtain ⟨o, h, δ, δ', h1, h2⟩ := C131_overwritten (9 / 10) (by norm_num) (by norm_num) "m_west".toList "m_north".toList (by decide)
  exact ⟨o, h, δ, δ', h1, h2 _ rfl rfl⟩

/-- A mirror with two names, trained, is saved and loaded into two mirrors that were built with another reflectivity. -/
example : ∃ (s : Shelf) (os : List (Str × Obj)), (s.names.map Prod.fst).Nodup ∧ s.names = [(['a'], 0), (['b'], 0)] ∧ os.length = 2 ∧
    ∃ rs, loadNet os (saveNet s.components) = .ok rs ∧ rs.map (fun p => (p.1, p.2.dev)) = s.components.map fun p => (p.1, p.2.dev) := by
  obtain ⟨o, ho⟩ := mirror_exists (9 / 10) (by norm_num) (by norm_num) true
  obtain ⟨o', ho'⟩ := mirror_exists (1 / 2) (by norm_num) (by norm_num) false
  refine ⟨⟨[(['a'], 0), (['b'], 0)], fun _ => o.train (fun _ => 1, fun _ _ _ => 0)⟩, [(['a'], o'), (['b'], o')], by simp, rfl, rfl,
    C131_separate_partial _ _ (by simp) ?_⟩
  exact .cons ⟨rfl, _, _, o, o', [_], [], .mirror _ _ _ _, ho, ho', rfl, rfl⟩ (.cons ⟨rfl, _, _, o, o', [_], [], .mirror _ _ _ _, ho, ho', rfl, rfl⟩ .nil)

end PT
