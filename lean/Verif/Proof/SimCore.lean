import Verif.Proof.Reduce
import Verif.Proof.Buffer

/-!
# From `initNet` to the circuit equations
-/

namespace PT

open Matrix Spec

variable {W B : Type}

/-- No port carries two markings (guaranteed by `Comp.check`). -/
def Plant.Exclusive (p : Plant W) : Prop :=
  ∀ i, ¬ (p.src i = true ∧ p.det i = true) ∧ ¬ (p.src i = true ∧ p.act i = true) ∧
    ¬ (p.det i = true ∧ p.act i = true)

/-- The scattering matrix at a wavelength. -/
def Plant.Sx (p : Plant W) (w : W) : Matrix (Fin p.n) (Fin p.n) ℂ := cx (p.rS w) (p.iS w)

/-- The connection matrix. -/
def Plant.Cx (p : Plant W) : Matrix (Fin p.n) (Fin p.n) ℂ := cx p.C 0

/-- Sources, detectors and active ports. -/
def Plant.marked (p : Plant W) (i : Fin p.n) : Bool := p.src i || p.det i || p.act i

theorem initNet_some {p : Plant W} {env : SimEnv} {r : Reduced W}
    (h : initNet p env = .ok (some r)) :
    p.terminated ∧ ∃ C, reducedC p.C p.rS p.iS (p.mcOrder env) (p.mlPorts env) = .ok C ∧
      r = reducedOf p env C := by
  unfold initNet at h
  split at h
  · simp at h
  · rename_i hn
    push Not at hn
    refine ⟨hn.1, ?_⟩
    cases hr : reducedC p.C p.rS p.iS (p.mcOrder env) (p.mlPorts env) with
    | error e => rw [hr] at h; simp [Except.map] at h
    | ok C =>
      rw [hr] at h
      simp only [Except.map, Except.ok.injEq, Option.some.injEq] at h
      exact ⟨C, rfl, h.symm⟩

theorem mem_mcOrder (p : Plant W) (env : SimEnv) (i : Fin p.n) :
    i ∈ p.mcOrder env ↔ p.mcAt env i = true := by
  simp only [Plant.mcOrder, Plant.mcPorts, List.mem_append, List.mem_filter, List.mem_finRange,
    true_and]
  constructor
  · rintro (((h | h) | h) | h) <;> exact h.1
  · intro h
    cases hs : p.src i <;> cases ha : p.act i <;> cases hd : p.det i <;> simp [h]

theorem mem_mlPorts (p : Plant W) (env : SimEnv) (i : Fin p.n) :
    i ∈ p.mlPorts env ↔ p.mcAt env i = false := by
  simp [Plant.mlPorts]

theorem mcOrder_nodup (p : Plant W) (env : SimEnv) (hx : p.Exclusive) : (p.mcOrder env).Nodup := by
  have hn : ∀ q : Fin p.n → Bool, ((p.mcPorts env).filter q).Nodup := fun q =>
    ((List.nodup_finRange _).filter _).filter _
  have key : ∀ i q, i ∈ (p.mcPorts env).filter q → q i = true := fun i q h =>
    (List.mem_filter.1 h).2
  unfold Plant.mcOrder
  rw [List.nodup_append, List.nodup_append, List.nodup_append]
  refine ⟨⟨⟨hn _, hn _, ?_⟩, hn _, ?_⟩, hn _, ?_⟩
  · rintro a ha b hb rfl
    exact (hx a).2.1 ⟨key _ _ ha, key _ _ hb⟩
  · rintro a ha b hb rfl
    have := key _ _ hb
    rcases List.mem_append.1 ha with h | h <;> have h' := key _ _ h <;> simp [h'] at this
  · rintro a ha b hb rfl
    have hd := key _ _ hb
    rcases List.mem_append.1 ha with h | h
    · rcases List.mem_append.1 h with h | h
      · exact (hx a).1 ⟨key _ _ h, hd⟩
      · exact (hx a).2.2 ⟨hd, key _ _ h⟩
    · have := key _ _ h
      simp [hd] at this

theorem plant_splits (p : Plant W) (env : SimEnv) (hx : p.Exclusive) :
    Splits (p.mcOrder env) (p.mlPorts env) := by
  constructor
  · rw [List.nodup_append]
    refine ⟨mcOrder_nodup p env hx, (List.nodup_finRange _).filter _, ?_⟩
    rintro a ha b hb rfl
    rw [mem_mcOrder] at ha
    rw [mem_mlPorts] at hb
    simp [ha] at hb
  · intro i
    rw [mem_mcOrder, mem_mlPorts]
    cases p.mcAt env i <;> simp

theorem mcPorts_filter (p : Plant W) (env : SimEnv) (q : Fin p.n → Bool)
    (h : ∀ i, q i = true → p.mcAt env i = true) :
    (p.mcPorts env).filter q = portsWith q := by
  unfold Plant.mcPorts portsWith
  rw [List.filter_filter]
  apply List.filter_congr
  intro i _
  by_cases hq : q i = true
  · simp [hq, h i hq]
  · simp only [Bool.not_eq_true] at hq
    simp [hq]

theorem src_mcAt (p : Plant W) (env : SimEnv) (i : Fin p.n) (h : p.src i = true) : p.mcAt env i = true := by
  simp [Plant.mcAt, h]
theorem det_mcAt (p : Plant W) (env : SimEnv) (i : Fin p.n) (h : p.det i = true) : p.mcAt env i = true := by
  simp [Plant.mcAt, h]
theorem act_mcAt (p : Plant W) (env : SimEnv) (i : Fin p.n) (h : p.act i = true) : p.mcAt env i = true := by
  simp [Plant.mcAt, h]

/-- The ports of the reduced network: sources first, detectors last. -/
theorem mcOrder_eq (p : Plant W) (env : SimEnv) :
    ∃ mid, p.mcOrder env = portsWith p.src ++ mid ++ portsWith p.det := by
  refine ⟨(p.mcPorts env).filter p.act ++
    (p.mcPorts env).filter (fun i => !(p.src i || p.act i || p.det i)), ?_⟩
  unfold Plant.mcOrder
  rw [mcPorts_filter p env p.src (src_mcAt p env), mcPorts_filter p env p.det (det_mcAt p env)]
  simp only [List.append_assoc]

theorem numSrc_eq (p : Plant W) : p.numSrc = (portsWith p.src).length := rfl
theorem numDet_eq (p : Plant W) : p.numDet = (portsWith p.det).length := rfl

/-- The padded source vector is what the sources emit, in the reduced order. -/
theorem padSource_val (p : Plant W) (env : SimEnv) (hx : p.Exclusive) (s : ℕ → W → B → ℝ × ℝ)
    (w : W) (b : B) :
    (padSource (p.mcOrder env).length p.numSrc s).val w b =
      emitted p.src (fun k => ⟨(s k w b).1, (s k w b).2⟩) ∘ (p.mcOrder env).get := by
  obtain ⟨mid, hmid⟩ := mcOrder_eq p env
  have hnd := mcOrder_nodup p env hx
  funext k
  have hv : (padSource (p.mcOrder env).length p.numSrc s).val w b k =
      if (k : ℕ) < p.numSrc then (⟨(s k w b).1, (s k w b).2⟩ : ℂ) else 0 := by
    simp only [padSource, Fields.val, Matrix.of_apply]
    split <;> rfl
  rw [hv]
  simp only [Function.comp_apply, emitted]
  by_cases hk : (k : ℕ) < p.numSrc
  · rw [if_pos hk]
    rw [numSrc_eq] at hk
    have hget : (p.mcOrder env).get k = (portsWith p.src)[(k : ℕ)] := by
      rw [List.get_eq_getElem]
      simp only [hmid, List.append_assoc]
      rw [List.getElem_append_left hk]
    have hs : p.src ((p.mcOrder env).get k) = true := by
      rw [hget]
      exact (List.mem_filter.1 (List.getElem_mem hk)).2
    rw [if_pos hs, hget, List.Nodup.idxOf_getElem]
    exact (List.nodup_finRange _).filter _
  · rw [if_neg hk]
    rw [numSrc_eq] at hk
    have hns : ¬ p.src ((p.mcOrder env).get k) = true := by
      intro hs
      have hmem : (p.mcOrder env).get k ∈ portsWith p.src := by
        simp only [portsWith, List.mem_filter, List.mem_finRange, true_and]; exact hs
      obtain ⟨j, hj, hje⟩ := List.getElem_of_mem hmem
      have hj' : j < (p.mcOrder env).length := by rw [hmid]; simp; omega
      have : (p.mcOrder env)[j] = (p.mcOrder env)[(k : ℕ)] := by
        rw [← List.get_eq_getElem, ← hje]
        simp only [hmid, List.append_assoc]
        rw [List.getElem_append_left hj]
      have := (List.Nodup.getElem_inj_iff hnd).1 this
      omega
    rw [if_neg hns]

/-- The detected nodes are the detector ports in port order. -/
theorem detectNodes_eq (p : Plant W) (env : SimEnv) (hd : p.numDet ≠ 0)
    (x : Fields (p.mcOrder env).length W B) (w : W) (b : B) (a : Fin p.n → ℂ)
    (ha : a ∘ (p.mcOrder env).get = x.val w b) :
    detectNodes p.numDet x w b = (portsWith p.det).map fun i => ((a i).re, (a i).im) := by
  obtain ⟨mid, hmid⟩ := mcOrder_eq p env
  unfold detectNodes
  have h1 : (List.ofFn fun k : Fin (p.mcOrder env).length => (x.re w k b, x.im w k b)) =
      (p.mcOrder env).map fun i => ((a i).re, (a i).im) := by
    conv_rhs => rw [← List.ofFn_get (p.mcOrder env), List.map_ofFn]
    congr 1
    funext k
    have := congrFun ha k
    simp only [Function.comp_apply] at this ⊢
    rw [this]
    rfl
  rw [h1, if_neg hd]
  have hl : (p.mcOrder env).length - p.numDet = (portsWith p.src ++ mid).length := by
    rw [hmid, numDet_eq, List.length_append]; omega
  rw [hl, hmid, List.map_append, List.drop_left' (by rw [List.length_map])]

theorem sliceLen_eq (p : Plant W) (env : SimEnv) (hd : p.numDet ≠ 0) :
    sliceLen (p.mcOrder env).length p.numDet = p.numDet := by
  obtain ⟨mid, hmid⟩ := mcOrder_eq p env
  have : p.numDet ≤ (p.mcOrder env).length := by rw [hmid, numDet_eq]; simp; omega
  unfold sliceLen
  rw [if_neg hd]
  omega

end PT
