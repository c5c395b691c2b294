import Verif.Props.EnvCopy

/-!
# C109: legacy and extra keyword arguments of environments
-/

namespace PT
open Spec

namespace Spec

/-- The value of an attribute in a list of keywords: the last one with this name. -/
def attrOf (l : List (List Char × ℚ)) (k : List Char) : Option ℚ := (l.reverse.find? fun kv => decide (kv.1 = k)).map Prod.snd

/-- The keywords with the names of today. -/
def Modern (o : Overrides) (k : Aliases) (o' : Overrides) : Prop :=
  o'.wl = k.wavelength.or o.wl ∧ o'.t0 = k.t_start.or o.t0 ∧ o'.t1 = k.t_end.or o.t1 ∧ o'.num_t = k.num_timesteps.or o.num_t ∧
  o'.t = k.time.or o.t ∧ o'.dt = k.timestep.or o.dt ∧ o'.num_wl = k.num_wavelengths.or o.num_wl ∧
  o'.dwl = k.wavelength_step.or o.dwl ∧ o'.wl0 = k.wavelength_start.or o.wl0 ∧ o'.wl1 = k.wavelength_end.or o.wl1 ∧
  o'.freqdomain = k.frequency_domain.or o.freqdomain ∧ o'.grad = k.enable_grad.or o.grad ∧
  o'.samplerate = o.samplerate ∧ o'.bitrate = o.bitrate ∧ o'.bitlength = o.bitlength ∧ o'.f = o.f ∧ o'.df = o.df ∧
  o'.num_f = o.num_f ∧ o'.f0 = o.f0 ∧ o'.f1 = o.f1 ∧ o'.c = o.c ∧ o'.name = o.name ∧ o'.extras = o.extras

end Spec

theorem or_getD {α : Type} (x y : Option α) (d : α) : (x.or y).getD d = x.getD (y.getD d) := by
  cases x <;> rfl

theorem resolve_modern (a : Args) (o o' : Overrides) (k : Aliases) (h : Modern o k o') :
    resolveAliases (a.update o) k = a.update o' := by
  obtain ⟨h1, h2, h3, h4, h5, h6, h7, h8, h9, h10, h11, h12, h13, h14, h15, h16, h17, h18, h19, h20, h21, h22, h23⟩ := h
  unfold resolveAliases Args.update
  simp only [h1, h2, h3, h4, h5, h6, h7, h8, h9, h10, h11, h12, h13, h14, h15, h16, h17, h18, h19, h20, h21, h22, h23, or_getD]

/-- C109: the legacy keywords mean the new ones, in the constructor and in `copy`; if both are given, the legacy one counts. -/
theorem C109_legacy (o o' : Overrides) (k : Aliases) (h : Modern o k o') :
    Env.makeWith o k = Env.make o' ∧ ∀ e : Env, e.copyWith o k = e.copy o' := by
  refine ⟨?_, fun e => ?_⟩
  · unfold Env.makeWith Env.make
    rw [resolve_modern _ o o' k h]
  · unfold Env.copyWith Env.copy
    rw [resolve_modern _ o o' k h]

example : Env.makeWith { dt := some (.given 5), num_wl := some (.given 3) } { timestep := some (.given 1), t_end := some (.given 4) } =
    Env.make { dt := some (.given 1), t1 := some (.given 4), num_wl := some (.given 3) } :=
  (C109_legacy _ _ _ (by unfold Modern; decide)).1

theorem find_append {l m : List (List Char × ℚ)} (k : List Char) :
    attrOf (l ++ m) k = (attrOf m k).or (attrOf l k) := by
  unfold attrOf
  rw [List.reverse_append, List.find?_append]
  cases (m.reverse.find? fun kv => decide (kv.1 = k)) <;> rfl

theorem attrOf_cons (x : List Char × ℚ) (l : List (List Char × ℚ)) (k : List Char) :
    attrOf (x :: l) k = (attrOf l k).or (if x.1 = k then some x.2 else none) := by
  rw [show x :: l = [x] ++ l from rfl, find_append]
  congr 1
  unfold attrOf
  by_cases h : x.1 = k <;> simp [h]

theorem lookup_eq (l : List (List Char × ℚ)) (hn : (l.map Prod.fst).Nodup) (k : List Char) : l.lookup k = attrOf l k := by
  induction l with
  | nil => rfl
  | cons x l ih =>
    obtain ⟨n, v⟩ := x
    simp only [List.map_cons, List.nodup_cons] at hn
    rw [attrOf_cons, List.lookup_cons, ← ih hn.2]
    by_cases h : n = k
    · subst h
      have : l.lookup n = none := by
        rw [List.lookup_eq_none_iff]
        intro p hp
        simp only [bne_iff_ne, ne_eq, beq_eq_false_iff_ne]
        intro hc
        exact hn.1 (List.mem_map.mpr ⟨p, hp, hc.symm⟩)
      simp [this]
    · rw [show (k == n) = false from by simpa using Ne.symm h]
      simp [h]

theorem attrOf_none {l : List (List Char × ℚ)} {k : List Char} : attrOf l k = none ↔ k ∉ l.map Prod.fst := by
  unfold attrOf
  simp [List.find?_eq_none]
  constructor
  · intro h v hv
    exact h k v hv rfl
  · intro h a v hv hc
    exact h v (hc ▸ hv)

theorem attrOf_merge (l m : List (List Char × ℚ)) (hl : (l.map Prod.fst).Nodup) (hm : (m.map Prod.fst).Nodup) (k : List Char) :
    attrOf (mergeExtras l m) k = (attrOf m k).or (attrOf l k) := by
  unfold mergeExtras
  rw [find_append]
  have h1 : ∀ l' : List (List Char × ℚ), attrOf (l'.map fun kv => (kv.1, (m.lookup kv.1).getD kv.2)) k =
      (attrOf l' k).map fun v => (attrOf m k).getD v := by
    intro l'
    induction l' with
    | nil => rfl
    | cons x l' ih =>
      rw [List.map_cons, attrOf_cons, ih, attrOf_cons]
      simp only
      by_cases h : x.1 = k
      · subst h
        rw [lookup_eq m hm]
        cases attrOf l' x.1 <;> simp
      · simp [h]
  rw [h1]
  have h2 : ∀ m' : List (List Char × ℚ), attrOf (m'.filter fun kv => (l.lookup kv.1).isNone) k =
      if attrOf l k = none then attrOf m' k else none := by
    intro m'
    induction m' with
    | nil => split <;> rfl
    | cons x m' ih =>
      rw [List.filter_cons]
      by_cases h : x.1 = k
      · subst h
        rw [lookup_eq l hl]
        cases h3 : attrOf l x.1 with
        | none => simp [attrOf_cons, ih, h3]
        | some v => simp [ih, h3]
      · split
        · rw [attrOf_cons, ih, attrOf_cons]
          simp [h]
        · rw [ih, attrOf_cons]
          simp [h]
  rw [h2]
  cases attrOf l k <;> cases attrOf m k <;> simp

/-- C109: extra keywords are attributes of the environment; a copy has them too unless they begin with an underscore, with the
value given to `copy` if there is one; `copy` can add more. -/
theorem C109_extra (a : Args) (e e' : Env) (o : Overrides) (h : Env.init a = .ok e) (h' : e.copy o = .ok e')
    (hn : (a.extras.map Prod.fst).Nodup) (ho : (o.extras.map Prod.fst).Nodup) (k : List Char) :
    attrOf e.extras k = attrOf a.extras k ∧
      attrOf e'.extras k = (attrOf o.extras k).or (if k.head? = some '_' then none else attrOf a.extras k) := by
  have hx : e.extras = a.extras := by
    obtain ⟨c, br0, t0l, wl0l, t, wl, f, sr, bl, -, -, -, -, -, -, -, -, -, -, -, -, he⟩ := init_ok h
    subst he
    rfl
  have hx' : e'.extras = mergeExtras (publicExtras e.extras) o.extras := by
    obtain ⟨c, br0, t0l, wl0l, t, wl, f, sr, bl, -, -, -, -, -, -, -, -, -, -, -, -, he⟩ := init_ok h'
    subst he
    rfl
  rw [hx', hx]
  refine ⟨rfl, ?_⟩
  have hp : ((publicExtras a.extras).map Prod.fst).Nodup := hn.sublist ((List.filter_sublist (l := a.extras)).map Prod.fst)
  rw [attrOf_merge _ _ hp ho]
  congr 1
  generalize a.extras = l
  induction l with
  | nil => simp [publicExtras, attrOf]
  | cons x l ih =>
    unfold publicExtras at ih ⊢
    rw [List.filter_cons]
    by_cases h1 : x.1 = k
    · subst h1
      by_cases h2 : x.1.head? = some '_'
      · simp only [h2, bne_self_eq_false, Bool.false_eq_true, if_false, if_true] at ih ⊢
        exact ih
      · simp only [h2, if_false] at ih ⊢
        rw [if_pos (by simpa using h2), attrOf_cons, ih, attrOf_cons]
    · split
      · rw [attrOf_cons, ih, attrOf_cons]
        simp [h1]
      · rw [ih, attrOf_cons]
        simp [h1]

example : ∃ e e', Env.make { extras := [(['a'], 1), (['_', 'b'], 2), (['d'], 6)] } = .ok e ∧
    e.copy { extras := [(['c'], 3), (['d'], 7)] } = .ok e' ∧
    attrOf e'.extras ['a'] = some 1 ∧ attrOf e'.extras ['_', 'b'] = none ∧ attrOf e'.extras ['c'] = some 3 ∧
    attrOf e'.extras ['d'] = some 7 := by
  have key : okAnd (Env.make { extras := [(['a'], 1), (['_', 'b'], 2), (['d'], 6)] }) (fun e =>
    okAnd (e.copy { extras := [(['c'], 3), (['d'], 7)] }) fun _ => true) = true := by decide +kernel
  obtain ⟨e, he, hk⟩ := okAnd_iff.mp key
  obtain ⟨e', he', -⟩ := okAnd_iff.mp hk
  have h := fun k => (C109_extra _ e e' _ he he' (by decide) (by decide) k).2
  exact ⟨e, e', he, he', by rw [h]; decide, by rw [h]; decide, by rw [h]; decide, by rw [h]; decide⟩

end PT
