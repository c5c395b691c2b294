import Verif.Proof.Reck
import Verif.Props.Circuits

/-! Proof support: the circuit equations of a circuit given as a list of basic components, port by port. -/

namespace PT
open Spec Matrix

theorem cxBlock_split (p : Part) (L : List Part) (wl : ℝ) (i j : ℕ) : cxBlock (p :: L) wl i j =
    if i < p.n then (if j < p.n then p.dev.entry wl i j else 0) else if j < p.n then 0 else cxBlock L wl (i - p.n) (j - p.n) := by
  unfold cxBlock
  simp only [List.map_cons, blockMat]
  split
  · split
    · rfl
    · rfl
  · split
    · rfl
    · rfl

/-- The sum over a row of the circuit is a sum over the ports of one component. -/
theorem cxBlock_sum (wl : ℝ) : ∀ (L : List Part) (X : ℕ → ℂ) {i k : ℕ} {p : Part} {i' : ℕ}, partAt L i = some (k, p, i') →
    ∑ j ∈ Finset.range (partsN L), cxBlock L wl i j * X j = ∑ q ∈ Finset.range p.n, p.dev.entry wl i' q * X (i - i' + q)
  | [], _, _, _, _, _, h => by cases h
  | p₀ :: L, X, i, k, p, i', h => by
    unfold partsN
    rw [List.map_cons, List.sum_cons, Finset.sum_range_add]
    unfold partAt at h
    split at h
    · rename_i hi
      simp only [Option.some.injEq, Prod.mk.injEq] at h
      obtain ⟨-, rfl, rfl⟩ := h
      rw [Finset.sum_eq_zero (s := Finset.range (L.map Part.n).sum), add_zero]
      · refine Finset.sum_congr rfl fun q hq => ?_
        rw [cxBlock_split, if_pos hi, if_pos (Finset.mem_range.mp hq), Nat.sub_self, Nat.zero_add]
      · intro q _
        rw [cxBlock_split, if_pos hi, if_neg (by omega), zero_mul]
    · rename_i hi
      rw [Option.map_eq_some_iff] at h
      obtain ⟨⟨k', p', j'⟩, h1, h2⟩ := h
      simp only [Prod.mk.injEq] at h2
      obtain ⟨-, rfl, rfl⟩ := h2
      rw [Finset.sum_eq_zero, zero_add]
      · have ih := cxBlock_sum wl L (fun j => X (p₀.n + j)) h1
        unfold partsN at ih
        have hle : j' ≤ i - p₀.n := partAt_le L h1
        refine Eq.trans (Finset.sum_congr rfl fun q _ => ?_) (ih.trans (Finset.sum_congr rfl fun q _ => ?_))
        · rw [cxBlock_split, if_neg hi, if_neg (by omega), Nat.add_sub_cancel_left]
        · rw [show p₀.n + (i - p₀.n - j' + q) = i - j' + q by omega]
      · intro q hq
        rw [cxBlock_split, if_neg hi, if_pos (Finset.mem_range.mp hq), zero_mul]
where
  partAt_le : ∀ (L : List Part) {i k : ℕ} {p : Part} {i' : ℕ}, partAt L i = some (k, p, i') → i' ≤ i
    | [], _, _, _, _, h => by cases h
    | p₀ :: L, i, k, p, i', h => by
      unfold partAt at h
      split at h
      · simp only [Option.some.injEq, Prod.mk.injEq] at h
        omega
      · rw [Option.map_eq_some_iff] at h
        obtain ⟨⟨k', p', j'⟩, h1, h2⟩ := h
        simp only [Prod.mk.injEq] at h2
        have := partAt_le L h1
        omega

/-- A vector on the ports as a sequence. -/
def seq {n : ℕ} (x : Fin n → ℂ) (i : ℕ) : ℂ := if h : i < n then x ⟨i, h⟩ else 0

theorem seq_val {n : ℕ} (x : Fin n → ℂ) (i : Fin n) : seq x i = x i := by unfold seq; rw [dif_pos i.2]

variable {W : Type} {d : Dev} {L : List Part}

/-- What leaves a port, by the entries of its component. -/
theorem scatter_eq (hL : Flat d L) (v : ℝ) (wl : W → ℝ) (w : W) (x : Fin d.comp.n → ℂ) (i : Fin d.comp.n) {k : ℕ} {p : Part}
    {i' : ℕ} (hi : partAt L i = some (k, p, i')) :
    (cx ((d.plant v wl).rS w) ((d.plant v wl).iS w) *ᵥ x) i =
      ∑ q ∈ Finset.range p.n, p.dev.entry (wl w) i' q * seq x (i - i' + q) := by
  rw [← cxBlock_sum (wl w) L (seq x) hi, ← hL.n, Finset.sum_range]
  show ∑ j, cx ((d.plant v wl).rS w) ((d.plant v wl).iS w) i j * x j = _
  refine Finset.sum_congr rfl fun j _ => ?_
  rw [plant_S hL, seq_val]

/-- What enters a port left its partner. -/
theorem enter_eq (hc : Clean d.comp) (ht : d.comp.terminated = true) (v : ℝ) (wl : W → ℝ) (x : Fin d.comp.n → ℂ)
    (i j : Fin d.comp.n) (h : d.comp.C i j ≠ 0) : (cx (d.plant v wl).C 0 *ᵥ x) i = x j := by
  obtain ⟨σ, -, hσ⟩ := plant_paired hc ht v wl
  have hj : j = σ i := by
    by_contra hne
    have := hσ i j
    rw [if_neg hne] at this
    have h' : ((d.comp.C i j : ℚ) : ℝ) = 0 := this
    exact h (by exact_mod_cast h')
  show ∑ m, cx (d.plant v wl).C 0 i m * x m = _
  rw [Finset.sum_eq_single j]
  · have : (d.plant v wl).C i j = 1 := by rw [hσ, if_pos hj]
    have e : cx (d.plant v wl).C 0 i j = 1 := by
      apply Complex.ext
      · exact this
      · rfl
    rw [e, one_mul]
  · intro m _ hm
    have : (d.plant v wl).C i m = 0 := by rw [hσ, if_neg (by rw [← hj]; exact hm)]
    have e : cx (d.plant v wl).C 0 i m = 0 := by
      apply Complex.ext
      · exact this
      · rfl
    rw [e, zero_mul]
  · simp

/-- The matrix inverted by `initialize` is invertible if the waves staying among the ports `l` are zero. -/
theorem pick_invertible {ι : Type} [Fintype ι] [DecidableEq ι] (C S : Matrix ι ι ℂ) (l : List ι) (hl : l.Nodup)
    (h : ∀ u y : ι → ℂ, (∀ i, i ∉ l → u i = 0 ∧ y i = 0) → (∀ i ∈ l, u i = (C *ᵥ y) i ∧ y i = (S *ᵥ u) i) → u = 0) :
    (1 - pick C l l * pick S l l).det ≠ 0 := by
  intro hdet
  obtain ⟨x, hx, hx0⟩ := Matrix.exists_mulVec_eq_zero_iff.2 hdet
  apply hx
  rw [Matrix.sub_mulVec, Matrix.one_mulVec, sub_eq_zero, ← Matrix.mulVec_mulVec] at hx0
  have hinj : Function.Injective l.get := List.nodup_iff_injective_get.1 hl
  let ext (y : Fin l.length → ℂ) (i : ι) : ℂ := ∑ k, if l.get k = i then y k else 0
  have ext_get : ∀ y k, ext y (l.get k) = y k := by
    intro y k
    show (∑ k', if l.get k' = l.get k then y k' else 0) = _
    rw [Finset.sum_eq_single k]
    · simp
    · intro k' _ hk'
      rw [if_neg fun e => hk' (hinj e)]
    · simp
  have ext_out : ∀ y i, i ∉ l → ext y i = 0 := fun y i hi => Finset.sum_eq_zero fun k _ =>
    if_neg fun (e : l.get k = i) => hi (e ▸ List.get_mem l k)
  have hpick : ∀ (M : Matrix ι ι ℂ) y k, (pick M l l *ᵥ y) k = (M *ᵥ ext y) (l.get k) := by
    intro M y k
    simp only [pick, Matrix.mulVec, dotProduct, Matrix.submatrix_apply, ext]
    simp only [Finset.mul_sum, mul_ite, mul_zero]
    rw [Finset.sum_comm]
    refine Finset.sum_congr rfl fun k' _ => ?_
    simp
  have := h (ext x) (ext (pick S l l *ᵥ x)) (fun i hi => ⟨ext_out _ i hi, ext_out _ i hi⟩) (by
    intro i hi
    obtain ⟨k, rfl⟩ := List.get_of_mem hi
    rw [ext_get, ext_get, ← hpick, ← hpick, ← hx0]
    exact ⟨rfl, rfl⟩)
  funext k
  rw [← ext_get x k, this]
  rfl

end PT

namespace PT
open Spec Matrix

/-- A fully connected circuit of the components `L`, some of whose connections are `links` (as numbers of ports). -/
structure Wired (d : Dev) (L : List Part) (links : List (ℕ × ℕ)) : Prop where
  flat : Flat d L
  clean : Clean d.comp
  term : d.comp.terminated = true
  link : ∀ q ∈ links, d.comp.C q.1 q.2 ≠ 0 ∧ d.comp.C q.2 q.1 ≠ 0

variable {W : Type} {d : Dev} {L : List Part} {links : List (ℕ × ℕ)}

theorem partAt_bound (h : Flat d L) {i k : ℕ} {p : Part} {i' : ℕ} (hi : partAt L i = some (k, p, i')) : i < d.comp.n := by
  rw [h.n]
  exact go L hi
where
  go : ∀ (L : List Part) {i k : ℕ} {p : Part} {i' : ℕ}, partAt L i = some (k, p, i') → i < partsN L
    | [], _, _, _, _, h => by cases h
    | p₀ :: L, i, k, p, i', h => by
      unfold partAt at h
      unfold partsN
      rw [List.map_cons, List.sum_cons]
      split at h
      · omega
      · rw [Option.map_eq_some_iff] at h
        obtain ⟨⟨k', p', j'⟩, h1, h2⟩ := h
        have := go L h1
        unfold partsN at this
        omega

theorem Wired.bound (h : Wired d L links) {q : ℕ × ℕ} (hq : q ∈ links) : q.1 < d.comp.n ∧ q.2 < d.comp.n :=
  (built_reciprocal h.clean.built).2.2 _ _ (h.link q hq).1

/-- What enters a linked port left the other one. -/
theorem Wired.enters (h : Wired d L links) (v : ℝ) (wl : W → ℝ) {q : ℕ × ℕ} (hq : q ∈ links) (x : Fin d.comp.n → ℂ) :
    seq (cx (d.plant v wl).C 0 *ᵥ x) q.1 = seq x q.2 ∧ seq (cx (d.plant v wl).C 0 *ᵥ x) q.2 = seq x q.1 := by
  obtain ⟨h1, h2⟩ := h.bound hq
  obtain ⟨c1, c2⟩ := h.link q hq
  have e1 := enter_eq h.clean h.term v wl x ⟨q.1, h1⟩ ⟨q.2, h2⟩ c1
  have e2 := enter_eq h.clean h.term v wl x ⟨q.2, h2⟩ ⟨q.1, h1⟩ c2
  unfold seq
  rw [dif_pos h1, dif_pos h2, dif_pos h1, dif_pos h2]
  exact ⟨e1, e2⟩

/-- The equations of a circuit in the frequency domain. -/
theorem Wired.static (h : Wired d L links) (v : ℝ) (wl : W → ℝ) (w : W) {s a b : Fin d.comp.n → ℂ}
    (hs : SolvesStatic (cx (d.plant v wl).C 0) (cx ((d.plant v wl).rS w) ((d.plant v wl).iS w)) s a b) :
    (∀ q ∈ links, seq a q.1 = seq b q.2 ∧ seq a q.2 = seq b q.1) ∧
    ∀ {i k : ℕ} {p : Part} {i' : ℕ}, partAt L i = some (k, p, i') →
      seq b i = ∑ q ∈ Finset.range p.n, p.dev.entry (wl w) i' q * seq a (i - i' + q) + seq s i := by
  constructor
  · intro q hq
    have := h.enters v wl hq b
    rw [← hs.incoming] at this
    exact this
  · intro i k p i' hi
    have hlt := partAt_bound h.flat hi
    have e := congrFun hs.outgoing ⟨i, hlt⟩
    rw [Pi.add_apply, scatter_eq h.flat v wl w a ⟨i, hlt⟩ hi] at e
    unfold seq at e ⊢
    rw [dif_pos hlt, dif_pos hlt]
    exact e

/-- The value `τ` steps ago, zero before the start. -/
def past (x : ℕ → ℂ) (t τ : ℕ) : ℂ := if τ ≤ t then x (t - τ) else 0

/-- The equations of a circuit in the time domain. -/
theorem Wired.time (h : Wired d L links) (v : ℝ) (wl : W → ℝ) (w : W) (dt : ℝ) {T : ℕ} {s a b : ℕ → Fin d.comp.n → ℂ}
    (hs : Solves (cx (d.plant v wl).C 0) (cx ((d.plant v wl).rS w) ((d.plant v wl).iS w)) (circuitDelay d v wl dt) T s a b) :
    (∀ t < T, ∀ q ∈ links, seq (a t) q.1 = seq (b t) q.2 ∧ seq (a t) q.2 = seq (b t) q.1) ∧
    ∀ t < T, ∀ {i k : ℕ} {p : Part} {i' : ℕ}, partAt L i = some (k, p, i') →
      (∀ q < p.n, partAt L (i - i' + q) = some (k, p, q) ∧ p.comp.src.getD q false = false ∧ p.comp.det.getD q false = false) →
      seq (b t) i = ∑ q ∈ Finset.range p.n, p.dev.entry (wl w) i' q *
        past (fun t => seq (a t) (i - i' + q)) t (roundSteps (p.delay v / dt)) + seq (s t) i := by
  constructor
  · intro t ht q hq
    have := h.enters v wl hq (b t)
    rw [← hs.incoming t ht] at this
    exact this
  · intro t ht i k p i' hi hq
    have hlt := partAt_bound h.flat hi
    have e := congrFun (hs.outgoing t ht) ⟨i, hlt⟩
    rw [Pi.add_apply, scatter_eq h.flat v wl w _ ⟨i, hlt⟩ hi] at e
    have hb : seq (b t) i = b t ⟨i, hlt⟩ := dif_pos hlt
    have hss : seq (s t) i = s t ⟨i, hlt⟩ := dif_pos hlt
    rw [hb, hss, e]
    congr 1
    refine Finset.sum_congr rfl fun q hqm => ?_
    congr 1
    obtain ⟨hp, m1, m2⟩ := hq q (Finset.mem_range.mp hqm)
    have hlt' := partAt_bound h.flat hp
    have hdel : circuitDelay d v wl dt ⟨i - i' + q, hlt'⟩ = roundSteps (p.delay v / dt) := by
      obtain ⟨k', p', j', e1, -, -, e2, e3, e4, -⟩ := plant_port h.flat v wl ⟨i - i' + q, hlt'⟩
      have : some (k, p, q) = some (k', p', j') := hp.symm.trans e1
      simp only [Option.some.injEq, Prod.mk.injEq] at this
      obtain ⟨-, rfl, rfl⟩ := this
      unfold circuitDelay portDelay
      rw [e2, e3, e4, m1, m2]
      rfl
    unfold seq past
    rw [dif_pos hlt']
    unfold delayed
    rw [hdel]
    split <;> rfl

/-- What leaves a source or a detector is what is injected. -/
theorem Wired.ends (h : Wired d L links) (v : ℝ) (wl : W → ℝ) (w : W) (dt : ℝ) {T : ℕ} {s a b : ℕ → Fin d.comp.n → ℂ}
    (hs : Solves (cx (d.plant v wl).C 0) (cx ((d.plant v wl).rS w) ((d.plant v wl).iS w)) (circuitDelay d v wl dt) T s a b)
    {t : ℕ} (ht : t < T) {i k : ℕ} {p : Part} {i' : ℕ} (hi : partAt L i = some (k, p, i'))
    (hp : ∀ q < p.n, p.dev.entry (wl w) i' q = 0) : seq (b t) i = seq (s t) i := by
  have hlt := partAt_bound h.flat hi
  have e := congrFun (hs.outgoing t ht) ⟨i, hlt⟩
  rw [Pi.add_apply, scatter_eq h.flat v wl w _ ⟨i, hlt⟩ hi,
    Finset.sum_eq_zero (fun q hq => by rw [hp q (Finset.mem_range.mp hq), zero_mul]), zero_add] at e
  unfold seq
  rw [dif_pos hlt, dif_pos hlt]
  exact e

/-- The component remembers: it is a source, a detector or has a delay of at least one step. -/
def Remembers (env : SimEnv) (v : ℝ) (p : Part) : Prop :=
  p = .source ∨ p = .detector ∨ (env.freqdomain = false ∧ ∃ dt, env.dt = some dt ∧ 0 < roundSteps (p.delay v / dt))

theorem mcAt_part (h : Flat d L) (v : ℝ) (wl : W → ℝ) (env : SimEnv) (i : Fin d.comp.n) {k : ℕ} {p : Part} {i' : ℕ}
    (hi : partAt L i = some (k, p, i')) : (d.plant v wl).mcAt env i = true ↔ Remembers env v p := by
  obtain ⟨k', p', j', e1, -, hlt, e2, e3, e4, e5⟩ := plant_port h v wl i
  rw [hi] at e1
  simp only [Option.some.injEq, Prod.mk.injEq] at e1
  obtain ⟨-, rfl, rfl⟩ := e1
  rw [mcAt_iff]
  unfold Plant.marked Remembers
  rw [e3, e4, e5, Bool.or_false, Bool.or_eq_true]
  have hone : ∀ q : Part, q.n = 1 → i' < q.n → i' = 0 := fun q h1 h2 => by omega
  constructor
  · rintro ((h | h) | h)
    · exact .inl (part_src p _ h)
    · exact .inr (.inl (part_det p _ h))
    · right; right
      have hf : env.freqdomain = false := by
        by_contra hf
        rw [steps_freq _ _ (by simpa using hf)] at h
        simp at h
      refine ⟨hf, ?_⟩
      cases hdt : env.dt with
      | none =>
        unfold Plant.steps at h
        rw [hdt] at h
        simp at h
      | some dt =>
        rw [steps_toNat _ _ dt hdt, seconds_time _ _ hf, e2] at h
        exact ⟨dt, rfl, h⟩
  · rintro (rfl | rfl | ⟨hf, dt, hdt, h⟩)
    · have : i' = 0 := by have : i' < 1 := hlt; omega
      subst this
      exact .inl (.inl rfl)
    · have : i' = 0 := by have : i' < 1 := hlt; omega
      subst this
      exact .inl (.inr rfl)
    · right
      rw [steps_toNat _ _ dt hdt, seconds_time _ _ hf, e2]
      exact h

/-- A circuit can be initialized if no waves stay among the components that do not remember. -/
theorem Wired.init (h : Wired d L links) (v : ℝ) (wl : W → ℝ) (env : SimEnv) {i₀ k₀ : ℕ} {p₀ : Part} {i₀' : ℕ}
    (h₀ : partAt L i₀ = some (k₀, p₀, i₀')) (hp₀ : Remembers env v p₀)
    (hz : ∀ (w : W) (U Y : ℕ → ℂ),
      (∀ {i k : ℕ} {p : Part} {i' : ℕ}, partAt L i = some (k, p, i') → Remembers env v p → U i = 0 ∧ Y i = 0) →
      (∀ q ∈ links, ∀ {k : ℕ} {p : Part} {i' : ℕ}, partAt L q.1 = some (k, p, i') → ¬Remembers env v p → U q.1 = Y q.2) →
      (∀ q ∈ links, ∀ {k : ℕ} {p : Part} {i' : ℕ}, partAt L q.2 = some (k, p, i') → ¬Remembers env v p → U q.2 = Y q.1) →
      (∀ {i k : ℕ} {p : Part} {i' : ℕ}, partAt L i = some (k, p, i') → ¬Remembers env v p →
        Y i = ∑ q ∈ Finset.range p.n, p.dev.entry (wl w) i' q * U (i - i' + q)) →
      ∀ i < partsN L, U i = 0) :
    ∃ r, initNet (d.plant v wl) env = .ok (some r) := by
  refine C26_initialized _ env (plant_terminated h.clean h.term v wl) ⟨⟨i₀, partAt_bound h.flat h₀⟩, ?_⟩ fun w => ?_
  · exact (mcAt_part h.flat v wl env ⟨i₀, partAt_bound h.flat h₀⟩ h₀).mpr hp₀
  refine pick_invertible _ _ _ ((List.nodup_finRange _).filter _) ?_
  intro u y hout hin
  have hml : ∀ {i k : ℕ} {p : Part} {i' : ℕ} (hi : partAt L i = some (k, p, i')),
      (⟨i, partAt_bound h.flat hi⟩ : Fin d.comp.n) ∈ (d.plant v wl).mlPorts env ↔ ¬Remembers env v p := by
    intro i k p i' hi
    rw [mem_mlPorts, ← mcAt_part h.flat v wl env ⟨i, partAt_bound h.flat hi⟩ hi]
    simp
  have hU := hz w (seq u) (seq y) ?_ ?_ ?_ ?_
  · funext i
    rw [← seq_val u i]
    exact hU i (by rw [← h.flat.n]; exact i.2)
  · intro i k p i' hi hr
    have := hout ⟨i, partAt_bound h.flat hi⟩ (by rw [hml hi]; exact not_not_intro hr)
    unfold seq
    rw [dif_pos (partAt_bound h.flat hi), dif_pos (partAt_bound h.flat hi)]
    exact this
  · intro q hq k p i' hi hr
    have e := (hin ⟨q.1, partAt_bound h.flat hi⟩ ((hml hi).mpr hr)).1
    have := (h.enters v wl hq y).1
    rw [← this]
    unfold seq
    rw [dif_pos (partAt_bound h.flat hi), dif_pos (partAt_bound h.flat hi)]
    exact e
  · intro q hq k p i' hi hr
    have e := (hin ⟨q.2, partAt_bound h.flat hi⟩ ((hml hi).mpr hr)).1
    have := (h.enters v wl hq y).2
    rw [← this]
    unfold seq
    rw [dif_pos (partAt_bound h.flat hi), dif_pos (partAt_bound h.flat hi)]
    exact e
  · intro i k p i' hi hr
    have e := (hin ⟨i, partAt_bound h.flat hi⟩ ((hml hi).mpr hr)).2
    rw [scatter_eq h.flat v wl w u ⟨i, partAt_bound h.flat hi⟩ hi] at e
    rw [← e]
    unfold seq
    rw [dif_pos (partAt_bound h.flat hi)]

/-- The matrix inverted by `initialize` is singular if waves can stay among the ports `l`. -/
theorem pick_singular {ι : Type} [Fintype ι] [DecidableEq ι] (C S : Matrix ι ι ℂ) (l : List ι) (hl : l.Nodup)
    (u y : ι → ℂ) (hout : ∀ i, i ∉ l → u i = 0 ∧ y i = 0) (hin : ∀ i ∈ l, u i = (C *ᵥ y) i ∧ y i = (S *ᵥ u) i) (h0 : u ≠ 0) :
    (1 - pick C l l * pick S l l).det = 0 := by
  have hinj : Function.Injective l.get := List.nodup_iff_injective_get.1 hl
  have hpick : ∀ (M : Matrix ι ι ℂ) (x : ι → ℂ), (∀ i, i ∉ l → x i = 0) → ∀ k, (pick M l l *ᵥ fun k => x (l.get k)) k =
      (M *ᵥ x) (l.get k) := by
    intro M x hx k
    simp only [pick, Matrix.mulVec, dotProduct, Matrix.submatrix_apply]
    rw [← Finset.sum_image (s := Finset.univ) (g := l.get) (f := fun i => M (l.get k) i * x i) fun a _ b _ h => hinj h]
    refine Finset.sum_subset (Finset.subset_univ _) fun i _ hi => ?_
    rw [hx i, mul_zero]
    intro hil
    obtain ⟨k', rfl⟩ := List.get_of_mem hil
    exact hi (Finset.mem_image_of_mem _ (Finset.mem_univ _))
  rw [← Matrix.exists_mulVec_eq_zero_iff]
  refine ⟨fun k => u (l.get k), ?_, ?_⟩
  · intro h
    apply h0
    funext i
    by_cases hi : i ∈ l
    · obtain ⟨k, rfl⟩ := List.get_of_mem hi
      exact congrFun h k
    · exact (hout i hi).1
  · rw [Matrix.sub_mulVec, Matrix.one_mulVec, sub_eq_zero, ← Matrix.mulVec_mulVec]
    have e : (pick S l l *ᵥ fun k => u (l.get k)) = fun k => y (l.get k) := by
      funext k
      rw [hpick S u fun i hi => (hout i hi).1]
      exact ((hin _ (List.get_mem l k)).2).symm
    rw [e]
    funext k
    rw [hpick C y fun i hi => (hout i hi).2]
    exact (hin _ (List.get_mem l k)).1

/-- Every port belongs to a component. -/
theorem partAt_exists : ∀ (L : List Part) {i : ℕ}, i < partsN L → ∃ k p i', partAt L i = some (k, p, i')
  | [], _, h => by simp [partsN] at h
  | p₀ :: L, i, h => by
    unfold partAt
    by_cases hi : i < p₀.n
    · rw [if_pos hi]
      exact ⟨_, _, _, rfl⟩
    · rw [if_neg hi]
      unfold partsN at h
      rw [List.map_cons, List.sum_cons] at h
      obtain ⟨k, p, i', h'⟩ := partAt_exists L (i := i - p₀.n) (by unfold partsN; omega)
      rw [h']
      exact ⟨_, _, _, rfl⟩

/-- A circuit cannot be initialized if waves can stay among the components that do not remember. -/
theorem Wired.fails (h : Wired d L links) (v : ℝ) (wl : W → ℝ) (env : SimEnv) {i₀ k₀ : ℕ} {p₀ : Part} {i₀' : ℕ}
    (h₀ : partAt L i₀ = some (k₀, p₀, i₀')) (hp₀ : Remembers env v p₀) (w : W) (U Y : ℕ → ℂ)
    (hout : ∀ {i k : ℕ} {p : Part} {i' : ℕ}, partAt L i = some (k, p, i') → Remembers env v p → U i = 0 ∧ Y i = 0)
    (hin : ∀ {i k : ℕ} {p : Part} {i' : ℕ}, partAt L i = some (k, p, i') → ¬Remembers env v p →
      (∃ j, ((i, j) ∈ links ∨ (j, i) ∈ links) ∧ U i = Y j) ∧
      Y i = ∑ q ∈ Finset.range p.n, p.dev.entry (wl w) i' q * U (i - i' + q))
    (hU : ∃ i < partsN L, U i ≠ 0) : initNet (d.plant v wl) env = .error .runtimeError := by
  have hn := h.flat.n
  have hsing : (1 - pick (cx (d.plant v wl).C 0) ((d.plant v wl).mlPorts env) ((d.plant v wl).mlPorts env) *
      pick (cx ((d.plant v wl).rS w) ((d.plant v wl).iS w)) ((d.plant v wl).mlPorts env) ((d.plant v wl).mlPorts env)).det = 0 := by
    have hz : ∀ F : ℕ → ℂ, ∀ i < d.comp.n, seq (fun i : Fin d.comp.n => F i) i = F i := fun F i hi => dif_pos hi
    refine pick_singular _ _ _ ((List.nodup_finRange _).filter _) (fun i : Fin d.comp.n => U i) (fun i : Fin d.comp.n => Y i) ?_ ?_ ?_
    · intro i hi
      obtain ⟨k, p, i', hp⟩ := partAt_exists L (i := i) (hn ▸ i.2)
      refine hout hp ?_
      rw [← mcAt_part h.flat v wl env i hp]
      by_contra hc
      exact hi (by rw [mem_mlPorts]; simpa using hc)
    · intro i hi
      obtain ⟨k, p, i', hp⟩ := partAt_exists L (i := i) (hn ▸ i.2)
      have hr : ¬Remembers env v p := by
        rw [← mcAt_part h.flat v wl env i hp]
        rw [mem_mlPorts] at hi
        simpa using hi
      obtain ⟨⟨j, hj, e⟩, e2⟩ := hin hp hr
      constructor
      · rcases hj with hj | hj
        · have := (h.enters v wl hj fun i : Fin d.comp.n => Y i).1
          have hlt := h.bound hj
          rw [hz Y _ hlt.2] at this
          show U i = _
          rw [e, ← this]
          exact dif_pos i.2
        · have := (h.enters v wl hj fun i : Fin d.comp.n => Y i).2
          have hlt := h.bound hj
          rw [hz Y _ hlt.1] at this
          show U i = _
          rw [e, ← this]
          exact dif_pos i.2
      · rw [scatter_eq h.flat v wl w _ i hp]
        show Y i = _
        rw [e2]
        refine Finset.sum_congr rfl fun q hq => ?_
        by_cases hlt : i - i' + q < d.comp.n
        · rw [hz U _ hlt]
        · exfalso
          apply hlt
          rw [hn]
          exact partAt_fits L hp (Finset.mem_range.mp hq)
    · obtain ⟨i, hi, hne⟩ := hU
      intro h0
      exact hne (congrFun h0 (⟨i, hn ▸ hi⟩ : Fin d.comp.n))
  unfold initNet
  have hmc : ((d.plant v wl).mcPorts env).length ≠ 0 := by
    rw [Ne, List.length_eq_zero_iff]
    apply List.ne_nil_of_mem (a := (⟨i₀, partAt_bound h.flat h₀⟩ : Fin d.comp.n))
    have := (mcAt_part h.flat v wl env ⟨i₀, partAt_bound h.flat h₀⟩ h₀).mpr hp₀
    simp [Plant.mcPorts, this]
  rw [if_neg (by push Not; exact ⟨plant_terminated h.clean h.term v wl, hmc⟩),
    (C25_failure _ _ _ _ _ _).2 ⟨rfl, w, hsing⟩]
  rfl
where
  partAt_fits : ∀ (L : List Part) {i k : ℕ} {p : Part} {i' q : ℕ}, partAt L i = some (k, p, i') → q < p.n →
      i - i' + q < partsN L
    | [], _, _, _, _, _, h, _ => by cases h
    | p₀ :: L, i, k, p, i', q, h, hq => by
      unfold partAt at h
      unfold partsN
      rw [List.map_cons, List.sum_cons]
      split at h
      · simp only [Option.some.injEq, Prod.mk.injEq] at h
        obtain ⟨-, rfl, rfl⟩ := h
        omega
      · rw [Option.map_eq_some_iff] at h
        obtain ⟨⟨k', p', j'⟩, h1, h2⟩ := h
        simp only [Prod.mk.injEq] at h2
        obtain ⟨-, rfl, rfl⟩ := h2
        have := partAt_fits L h1 hq
        unfold partsN at this
        omega

end PT
