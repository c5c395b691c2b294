import Verif.Model.Bounded

/-!
# C46, C69: bounded parameters
-/

namespace PT

theorem tsigmoid_bot : tsigmoid ⊥ = 0 := rfl

theorem tsigmoid_top : tsigmoid ⊤ = 1 := rfl

theorem tsigmoid_mem (w : EReal) : 0 ≤ tsigmoid w ∧ tsigmoid w ≤ 1 := by
  induction w using EReal.rec with
  | bot => simp [tsigmoid_bot]
  | top => simp [tsigmoid_top]
  | coe x =>
    have : 0 < Real.exp (-x) := Real.exp_pos _
    show 0 ≤ 1 / (1 + Real.exp (-x)) ∧ 1 / (1 + Real.exp (-x)) ≤ 1
    constructor
    · positivity
    · rw [div_le_one (by positivity)]; linarith

theorem inverse_value (x a b : ℝ) (hab : a < b) (h1 : a ≤ x) (h2 : x ≤ b) : boundedValue (inverseSigmoid x a b) a b = x := by
  have hba : 0 < b - a := by linarith
  rcases h1.eq_or_lt with rfl | h1
  · have : inverseSigmoid a a b = ⊥ := by
      unfold inverseSigmoid
      rw [sub_self, zero_div]
      unfold trecip
      rw [if_pos rfl]
      rfl
    rw [this]
    simp [boundedValue, tsigmoid_bot]
  · rcases h2.eq_or_lt with rfl | h2
    · have : inverseSigmoid x a x = ⊤ := by
        unfold inverseSigmoid
        rw [div_self hba.ne']
        unfold trecip
        rw [if_neg one_ne_zero]
        have : ((1 / 1 : ℝ) : EReal) - 1 = ((0 : ℝ) : EReal) := by
          rw [← EReal.coe_one, ← EReal.coe_sub]; norm_num
        rw [this]
        show -(if (0 : ℝ) = 0 then (⊥ : EReal) else _) = _
        rw [if_pos rfl]
        rfl
      rw [this]
      simp [boundedValue, tsigmoid_top]
    · set s := (x - a) / (b - a) with hs
      have hs0 : 0 < s := div_pos (by linarith) hba
      have hs1 : s < 1 := by rw [hs, div_lt_one hba]; linarith
      have hpos : 0 < 1 / s - 1 := by
        rw [sub_pos, lt_div_iff₀ hs0]; linarith
      have : inverseSigmoid x a b = ((-Real.log (1 / s - 1) : ℝ) : EReal) := by
        unfold inverseSigmoid
        rw [← hs]
        unfold trecip
        rw [if_neg hs0.ne', ← EReal.coe_one, ← EReal.coe_sub]
        show -(if (1 / s - 1) = 0 then (⊥ : EReal) else _) = _
        rw [if_neg hpos.ne', EReal.coe_neg]
      rw [this]
      show (b - a) * (1 / (1 + Real.exp (- -Real.log (1 / s - 1)))) + a = x
      rw [neg_neg, Real.exp_log hpos]
      have : 1 / (1 + (1 / s - 1)) = s := by
        rw [add_sub_cancel, one_div_one_div]
      rw [this, hs]
      field_simp
      ring

/-- C46: data within the bounds (bounds included) is represented exactly, … -/
theorem C46_value (data : List ℝ) (a b : ℝ) (hab : a < b) (hd : ∀ x ∈ data, a ≤ x ∧ x ≤ b) :
    ∃ p, boundedNew data a b = .ok p ∧ p.values = data := by
  unfold boundedNew
  rw [if_neg (not_le.2 hab), if_neg (by
    rintro (⟨x, hx, h⟩ | ⟨x, hx, h⟩)
    · linarith [(hd x hx).1]
    · linarith [(hd x hx).2])]
  refine ⟨_, rfl, ?_⟩
  simp only [Bounded.values, List.map_map]
  conv_rhs => rw [← List.map_id data]
  apply List.map_congr_left
  intro x hx
  exact inverse_value x a b hab (hd x hx).1 (hd x hx).2

example : ∃ p, boundedNew [0, 1 / 4, 1] 0 1 = .ok p ∧ p.values = [0, 1 / 4, 1] :=
  C46_value _ _ _ (by norm_num) (by simp; norm_num)

/-- … everything else is rejected, … -/
theorem C46_rejected (data : List ℝ) (a b : ℝ) (h : b ≤ a ∨ ∃ x ∈ data, x < a ∨ b < x) :
    boundedNew data a b = .error .valueError := by
  unfold boundedNew
  by_cases hab : b ≤ a
  · rw [if_pos hab]
  · rw [if_neg hab, if_pos]
    obtain ⟨x, hx, h | h⟩ := h.resolve_left hab
    · exact .inl ⟨x, hx, h⟩
    · exact .inr ⟨x, hx, h⟩

example : boundedNew [1 / 2, 3 / 2] 0 1 = .error .valueError :=
  C46_rejected _ _ _ (.inr ⟨3 / 2, by simp, .inr (by norm_num)⟩)

/-- … and after any updates all values are within the bounds. -/
theorem C46_bounds (data : List ℝ) (a b : ℝ) (p : Bounded) (h : boundedNew data a b = .ok p) (δs : List (List ℝ)) :
    (δs.foldl Bounded.update p).values.length = data.length ∧
    ∀ v ∈ (δs.foldl Bounded.update p).values, a ≤ v ∧ v ≤ b := by
  have hp : a < b ∧ p.lo = a ∧ p.hi = b ∧ p.weights.length = data.length := by
    unfold boundedNew at h
    split_ifs at h with h1 h2
    cases h
    exact ⟨not_le.1 h1, rfl, rfl, by simp⟩
  obtain ⟨hab, hlo, hhi, hlen⟩ := hp
  clear h
  induction δs generalizing p with
  | nil =>
    refine ⟨by simp [Bounded.values, hlen], fun v hv => ?_⟩
    simp only [List.foldl_nil, Bounded.values, List.mem_map] at hv
    obtain ⟨w, -, rfl⟩ := hv
    have := tsigmoid_mem w
    rw [hlo, hhi]
    unfold boundedValue
    constructor <;> nlinarith
  | cons δ δs ih => exact ih (p.update δ) hlo hhi (by simp [Bounded.update, hlen])

/-- Two updates of a parameter. -/
example : ∃ p, boundedNew [0, 1 / 4] 0 1 = .ok p ∧
    ∀ v ∈ ([[1, -3], [5, 2]].foldl Bounded.update p).values, 0 ≤ v ∧ v ≤ 1 := by
  obtain ⟨p, hp, -⟩ := C46_value [0, 1 / 4] 0 1 (by norm_num) (by simp; norm_num)
  exact ⟨p, hp, (C46_bounds _ _ _ p hp _).2⟩

/-- C69 is violated: entries given at a bound stay there, whatever the optimizer does. -/
theorem C69_violation (data : List ℝ) (a b : ℝ) (p : Bounded) (h : boundedNew data a b = .ok p) (δs : List (List ℝ)) (k : ℕ)
    (hk : k < data.length) (hb : data[k] = a ∨ data[k] = b) :
    (δs.foldl Bounded.update p).values[k]? = some data[k] := by
  have hp : a < b ∧ p = ⟨data.map fun x => inverseSigmoid x a b, a, b⟩ ∧ ∀ x ∈ data, a ≤ x ∧ x ≤ b := by
    unfold boundedNew at h
    split_ifs at h with h1 h2
    cases h
    push Not at h2
    exact ⟨not_le.1 h1, rfl, fun x hx => ⟨h2.1 x hx, h2.2 x hx⟩⟩
  obtain ⟨hab, rfl, hd⟩ := hp
  have hval := inverse_value data[k] a b hab (hd _ (List.getElem_mem hk)).1 (hd _ (List.getElem_mem hk)).2
  have hinf : inverseSigmoid data[k] a b = ⊥ ∨ inverseSigmoid data[k] a b = ⊤ := by
    have hba : b - a ≠ 0 := by intro h; linarith
    rcases hb with hb | hb
    · left
      rw [hb]
      unfold inverseSigmoid trecip
      rw [sub_self, zero_div, if_pos rfl]
      rfl
    · right
      rw [hb]
      unfold inverseSigmoid trecip
      rw [div_self hba, if_neg one_ne_zero]
      have : ((1 / 1 : ℝ) : EReal) - 1 = ((0 : ℝ) : EReal) := by
        rw [← EReal.coe_one, ← EReal.coe_sub]; norm_num
      rw [this]
      show -(if (0 : ℝ) = 0 then (⊥ : EReal) else _) = _
      rw [if_pos rfl]
      rfl
  have key : ∀ (δs : List (List ℝ)) (p : Bounded), p.lo = a → p.hi = b → p.weights[k]? = some (inverseSigmoid data[k] a b) →
      (δs.foldl Bounded.update p).values[k]? = some data[k] := by
    intro δs
    induction δs with
    | nil =>
      intro p hlo hhi hw
      simp only [List.foldl_nil, Bounded.values, List.getElem?_map, hw, Option.map_some, hlo, hhi]
      rw [hval]
    | cons δ δs ih =>
      intro p hlo hhi hw
      refine ih (p.update δ) hlo hhi ?_
      simp only [Bounded.update, List.getElem?_map, List.getElem?_zipIdx, hw, Option.map_some, zero_add]
      rcases hinf with h | h <;> rw [h]
      · simp
      · rw [EReal.top_add_coe]
  exact key δs _ rfl rfl (by simp [hk])

example : ∃ p, boundedNew [1, 1 / 4] 0 1 = .ok p ∧ ([[1, -3], [-5, 2]].foldl Bounded.update p).values[0]? = some 1 := by
  obtain ⟨p, hp, -⟩ := C46_value [1, 1 / 4] 0 1 (by norm_num) (by simp; norm_num)
  exact ⟨p, hp, C69_violation _ _ _ p hp _ 0 (by simp) (.inr rfl)⟩

/-- C69 (what holds): an entry given strictly inside the bounds can be moved to every other value strictly inside by a
suitable update. -/
theorem C69_inside_partial (x y a b : ℝ) (h1 : a < x) (h2 : x < b) (h3 : a < y) (h4 : y < b) :
    ∃ p δ, boundedNew [x] a b = .ok p ∧ (p.update [δ]).values = [y] := by
  have hab : a < b := by linarith
  have fin : ∀ z, a < z → z < b → ∃ r : ℝ, inverseSigmoid z a b = r := by
    intro z hz1 hz2
    have hba : 0 < b - a := by linarith
    have hs0 : 0 < (z - a) / (b - a) := div_pos (by linarith) hba
    have hs1 : (z - a) / (b - a) < 1 := by rw [div_lt_one hba]; linarith
    have hpos : 0 < 1 / ((z - a) / (b - a)) - 1 := by
      rw [sub_pos, lt_div_iff₀ hs0]; linarith
    refine ⟨-Real.log (1 / ((z - a) / (b - a)) - 1), ?_⟩
    unfold inverseSigmoid trecip
    rw [if_neg hs0.ne', ← EReal.coe_one, ← EReal.coe_sub]
    show -(if (1 / ((z - a) / (b - a)) - 1) = 0 then (⊥ : EReal) else _) = _
    rw [if_neg hpos.ne', EReal.coe_neg]
  obtain ⟨r, hr⟩ := fin x h1 h2
  obtain ⟨s, hs⟩ := fin y h3 h4
  refine ⟨⟨[inverseSigmoid x a b], a, b⟩, s - r, ?_, ?_⟩
  · unfold boundedNew
    rw [if_neg (not_le.2 hab), if_neg (by simp; exact ⟨h1.le, h2.le⟩)]
    rfl
  · simp only [Bounded.values, Bounded.update, List.zipIdx_cons, List.zipIdx_nil, List.map_cons, List.map_nil]
    rw [hr]
    have : ((r : ℝ) : EReal) + ((([s - r] : List ℝ).getD 0 0 : ℝ) : EReal) = ((s : ℝ) : EReal) := by
      show ((r : ℝ) : EReal) + ((s - r : ℝ) : EReal) = _
      rw [← EReal.coe_add]
      congr 1
      ring
    rw [this, ← hs, inverse_value y a b hab h3.le h4.le]

example : ∃ p δ, boundedNew [1 / 4] 0 1 = .ok p ∧ (p.update [δ]).values = [2 / 3] :=
  C69_inside_partial _ _ _ _ (by norm_num) (by norm_num) (by norm_num) (by norm_num)

end PT
