import Verif.Proof.Train
import Verif.Props.Circuits
import Verif.Proof.Tuned
import Verif.Proof.MeshTerm

/-!
# C117: constructors and training
-/

namespace PT
open Spec Matrix

theorem bounded_range (w : EReal) : 0 ≤ boundedValue w 0 1 ∧ boundedValue w 0 1 ≤ 1 := by
  have := tsigmoid_mem w
  unfold boundedValue
  constructor <;> linarith

theorem boundedAttr_ok {a : Str} {x : ℝ} {t : Bool} {q : Str × AVal × Bool} (h : boundedAttr a x t = .ok q) :
    ∃ w, q = (a, .bounded w 0 1, t) ∧ boundedValue w 0 1 = x := by
  unfold boundedAttr boundedNew at h
  split_ifs at h with h1 h2
  · cases h
  · cases h
  · simp only [Except.map, Except.ok.injEq, List.map_cons, List.map_nil, List.headD_cons] at h
    push Not at h2
    exact ⟨_, h.symm, inverse_value x 0 1 one_pos (h2.1 x (by simp)) (h2.2 x (by simp))⟩

theorem couplingAttr_ok {x : ℝ} {t : Bool} {q : Str × AVal × Bool} (h : couplingAttr x t = .ok q) :
    (t = false ∧ q = (['c', 'o', 'u', 'p', 'l', 'i', 'n', 'g'], .buffer x, false)) ∨
      (t = true ∧ ∃ w, q = (['c', 'o', 'u', 'p', 'l', 'i', 'n', 'g'], .bounded w 0 1, true) ∧ boundedValue w 0 1 = x) := by
  unfold couplingAttr at h
  cases t with
  | false => cases h; exact .inl ⟨rfl, rfl⟩
  | true => exact .inr ⟨rfl, boundedAttr_ok h⟩

theorem odds_move {w : EReal} {k : ℝ} (hw : boundedValue w 0 1 = k) (s : ℝ) : OddsMove k s (boundedValue (w + (s : ℝ)) 0 1) := by
  intro h0 h1
  induction w using EReal.rec with
  | bot =>
    rw [boundedValue, tsigmoid_bot] at hw
    linarith
  | top =>
    rw [boundedValue, tsigmoid_top] at hw
    linarith
  | coe r =>
    have val : ∀ r : ℝ, boundedValue (r : EReal) 0 1 = 1 / (1 + Real.exp (-r)) := by
      intro r
      show (1 - 0) * (1 / (1 + Real.exp (-r))) + 0 = _
      ring
    have odds : ∀ r : ℝ, 1 / (1 + Real.exp (-r)) / (1 - 1 / (1 + Real.exp (-r))) = Real.exp r := by
      intro r
      have h2 : 0 < Real.exp (-r) := Real.exp_pos _
      have h3 : Real.exp r * Real.exp (-r) = 1 := by rw [← Real.exp_add, add_neg_cancel, Real.exp_zero]
      have h4 : 1 - 1 / (1 + Real.exp (-r)) = Real.exp (-r) / (1 + Real.exp (-r)) := by field_simp; ring
      rw [h4]
      field_simp
      linarith
    rw [← EReal.coe_add, val]
    rw [val] at hw
    have h2 : 0 < Real.exp (-(r + s)) := Real.exp_pos _
    refine ⟨by positivity, by rw [div_lt_one (by linarith)]; linarith, ?_⟩
    rw [odds, ← hw, odds, Real.exp_add]

/-- What the coupling is after a history of training. -/
theorem coupling_later {x : ℝ} {t : Bool} {q : Str × AVal × Bool} (h : couplingAttr x t = .ok q)
    (δs : List ((Str → ℝ) × (ℕ → ℕ → ℕ → ℝ))) : ∃ v g, later δs q = (['c', 'o', 'u', 'p', 'l', 'i', 'n', 'g'], v, g) ∧
      (t = false → (seen v).toReal = x) ∧ (δs = [] → (seen v).toReal = x) ∧
      (0 ≤ x ∧ x ≤ 1 → 0 ≤ (seen v).toReal ∧ (seen v).toReal ≤ 1) ∧
      (t = true → OddsMove x (added δs ['_', 'c', 'o', 'u', 'p', 'l', 'i', 'n', 'g']) (seen v).toReal) := by
  rcases couplingAttr_ok h with ⟨ht, rfl⟩ | ⟨ht, w, rfl, hw⟩
  · exact ⟨_, _, later_buffer _ _ _, fun _ => rfl, fun _ => rfl, fun h => h, fun h => absurd (ht.symm.trans h) (by decide)⟩
  · refine ⟨_, _, later_bounded _ _ _ _ _ _, fun h => absurd (ht.symm.trans h) (by decide), ?_, fun _ => bounded_range _,
      fun _ => odds_move hw _⟩
    rintro rfl
    have : w + ((added [] ['_', 'c', 'o', 'u', 'p', 'l', 'i', 'n', 'g'] : ℝ) : EReal) = w := by simp [added]
    show boundedValue (w + _) 0 1 = x
    rw [this, hw]

theorem ok_inj {α ε : Type} {a b : α} (h : (Except.ok a : Except ε α) = .ok b) : a = b := by cases h; rfl

/-- The core of C117. -/
theorem trained_part (c : Call) (o : Obj) (h : c.new = .ok o) (δs : List ((Str → ℝ) × (ℕ → ℕ → ℕ → ℝ))) :
    ∃ p : Part, (δs.foldl Obj.train o).dev = .ok p.dev ∧ SameButTrained (asked c) p ∧ (Frozen c ∨ δs = [] → p = asked c) ∧
      (Bounds c → PassivePart (asked c) → PassivePart p) ∧ (Ratios (asked c) → Ratios p) ∧ Moves δs c p := by
  have hk := history_kind o δs
  set o' := δs.foldl Obj.train o with ho'
  cases c with
  | term => cases ok_inj h; exact ⟨.term, by unfold Obj.dev; rw [hk]; rfl, .refl _, fun _ => rfl, fun _ h => h, fun h => h, trivial⟩
  | source => cases ok_inj h; exact ⟨.source, by unfold Obj.dev; rw [hk]; rfl, .refl _, fun _ => rfl, fun _ h => h, fun h => h, trivial⟩
  | detector => cases ok_inj h; exact ⟨.detector, by unfold Obj.dev; rw [hk]; rfl, .refl _, fun _ => rfl, fun _ h => h, fun h => h, trivial⟩
  | connection => cases ok_inj h; exact ⟨.connection, by unfold Obj.dev; rw [hk]; rfl, .refl _, fun _ => rfl, fun _ h => h, fun h => h, trivial⟩
  | mirror R t =>
    simp only [Call.new] at h
    cases hb : boundedAttr ['R'] R t with
    | error e => rw [hb] at h; cases h
    | ok q =>
      rw [hb] at h
      obtain ⟨w, rfl, hw⟩ := boundedAttr_ok hb
      obtain ⟨o₁, h1, h2, h3, -⟩ := blank_assign .mirror [(['R'], .bounded w 0 1, t)] (by simp only [List.forall_mem_cons]; decide) (by simp)
      obtain rfl : o₁ = o := ok_inj (h1.symm.trans h)
      have hh := history_holds h2 δs
      simp only [List.map_cons, List.map_nil, later_bounded] at hh
      have e1 := hh.num (List.mem_cons_self)
      refine ⟨.mirror (boundedValue (if t then w + (added δs ['_', 'R'] : ℝ) else w) 0 1), ?_, .mirror _ _, ?_, fun _ _ => bounded_range _, fun _ => bounded_range _, ?_⟩
      · unfold Obj.dev
        rw [hk, h3]
        simp only
        rw [e1]
        rfl
      · rintro (ht | rfl)
        · cases (show t = false from ht); simp only [Bool.false_eq_true, if_false, hw]; rfl
        · simp only [added, List.map_nil, List.sum_nil, EReal.coe_zero, add_zero, ite_self, hw]; rfl
      · cases t with
        | false => trivial
        | true => exact odds_move hw _
  | waveguide length loss neff wl0 ng φ t =>
    obtain ⟨o₁, h1, h2, h3, -⟩ := blank_assign .waveguide (lengthAttrs length loss neff wl0 ng ++
      [flag ['t', 'r', 'a', 'i', 'n', 'a', 'b', 'l', 'e'] t, paramOrBuffer ['p', 'h', 'a', 's', 'e'] (modTwoPi φ) t])
      (by simp only [lengthAttrs, flag, plain, paramOrBuffer, List.cons_append, List.nil_append, List.forall_mem_cons]; decide)
      (by simp only [lengthAttrs, flag, plain, paramOrBuffer, List.cons_append, List.nil_append, List.map_cons, List.map_nil]; decide)
    obtain rfl : o₁ = o := ok_inj (h1.symm.trans h)
    have hh := history_holds h2 δs
    simp only [lengthAttrs, flag, List.cons_append, List.nil_append, List.map_cons, List.map_nil, later_plain, later_param] at hh
    have e1 := hh.num (a := ['l', 'o', 's', 's']) (v := .number loss) (g := false) (by simp [plain])
    have e2 := hh.num (a := ['n', 'e', 'f', 'f']) (v := .number neff) (g := false) (by simp [plain])
    have e3 := hh.num (a := ['w', 'l', '0']) (v := .number wl0) (g := false) (by simp [plain])
    have e4 := hh.num (a := ['n', 'g']) (v := .number ng) (g := false) (by simp [plain])
    have e5 := hh.num (a := ['l', 'e', 'n', 'g', 't', 'h']) (v := .number length) (g := false) (by simp [plain])
    have e6 := hh.num (a := ['p', 'h', 'a', 's', 'e'])
      (v := if t then .param (if t then modTwoPi φ + added δs ['p', 'h', 'a', 's', 'e'] else modTwoPi φ)
        else .buffer (if t then modTwoPi φ + added δs ['p', 'h', 'a', 's', 'e'] else modTwoPi φ)) (g := t) (by simp [paramOrBuffer])
    have hv : (δs.foldl Obj.train o₁).dev = .ok (devOf (passive 2) (waveguideSet length loss neff wl0 ng
        (if t then modTwoPi φ + added δs ['p', 'h', 'a', 's', 'e'] else modTwoPi φ)) (lengthDelay ng length)) := by
      unfold Obj.dev
      rw [hk, h3]
      simp only
      rw [e1, e2, e3, e4, e5, e6]
      cases t <;> rfl
    refine ⟨.waveguide length loss neff wl0 ng (if t then φ + added δs ['p', 'h', 'a', 's', 'e'] else φ), ?_, .waveguide .., ?_, fun _ h => h, fun h => h, ?_⟩
    · rw [hv]
      congr 1
      show _ = devOf (passive 2) (waveguideS length loss neff wl0 ng _) (lengthDelay ng length)
      congr 1
      funext wl
      cases t with
      | true => exact waveguide_shift ..
      | false =>
        have := waveguide_shift length loss neff wl0 ng φ 0 wl
        rw [add_zero, add_zero] at this
        exact this
    · rintro (ht | rfl)
      · cases (show t = false from ht); rfl
      · simp only [added, List.map_nil, List.sum_nil, add_zero, ite_self]; rfl
    · cases t with
      | false => trivial
      | true => exact rfl
  | coupler k t =>
    simp only [Call.new] at h
    cases hb : couplingAttr k t with
    | error e => rw [hb] at h; cases h
    | ok q =>
      rw [hb] at h
      obtain ⟨v, g, l1, l2, l3, l4, l5⟩ := coupling_later hb δs
      have hpub : Public q.1 ∧ True := by
        rcases couplingAttr_ok hb with ⟨-, rfl⟩ | ⟨-, w, rfl, -⟩ <;> exact ⟨by simp only; decide, trivial⟩
      obtain ⟨o₁, h1, h2, h3, -⟩ := blank_assign .coupler [q] (by simpa using hpub.1) (by simp)
      obtain rfl : o₁ = o := ok_inj (h1.symm.trans h)
      have hh := history_holds h2 δs
      simp only [List.map_cons, List.map_nil, l1] at hh
      have e1 := hh.num (List.mem_cons_self)
      refine ⟨.coupler (seen v).toReal, ?_, .coupler _ _, ?_, fun _ hx => l4 hx, fun hx => l4 hx, ?_⟩
      · unfold Obj.dev
        rw [hk, h3]
        simp only
        rw [e1]
        rfl
      · rintro (ht | hn)
        · rw [l2 ht]; rfl
        · rw [l3 hn]; rfl
      · cases t with
        | false => trivial
        | true => exact l5 rfl
  | longCoupler length k loss neff wl0 ng φ tp tc =>
    simp only [Call.new] at h
    cases hb : couplingAttr k tc with
    | error e => rw [hb] at h; cases h
    | ok q =>
      rw [hb] at h
      obtain ⟨v, g, l1, l2, l3, l4, l5⟩ := coupling_later hb δs
      have hpub : q.1 = ['c', 'o', 'u', 'p', 'l', 'i', 'n', 'g'] := by
        rcases couplingAttr_ok hb with ⟨-, rfl⟩ | ⟨-, w, rfl, -⟩ <;> rfl
      obtain ⟨o₁, h1, h2, h3, -⟩ := blank_assign .longCoupler (lengthAttrs length loss neff wl0 ng ++
        [flag ['t', 'r', 'a', 'i', 'n', 'a', 'b', 'l', 'e', '_', 'p', 'h', 'a', 's', 'e'] tp,
          flag ['t', 'r', 'a', 'i', 'n', 'a', 'b', 'l', 'e', '_', 'c', 'o', 'u', 'p', 'l', 'i', 'n', 'g'] tc,
          paramOrBuffer ['p', 'h', 'a', 's', 'e'] (modTwoPi φ) tp, q])
        (by simp only [lengthAttrs, flag, plain, paramOrBuffer, List.cons_append, List.nil_append, List.forall_mem_cons, hpub]; decide)
        (by simp only [lengthAttrs, flag, plain, paramOrBuffer, List.cons_append, List.nil_append, List.map_cons, List.map_nil, hpub]; decide)
      obtain rfl : o₁ = o := ok_inj (h1.symm.trans h)
      have hh := history_holds h2 δs
      simp only [lengthAttrs, flag, List.cons_append, List.nil_append, List.map_cons, List.map_nil, later_plain, later_param, l1] at hh
      have e1 := hh.num (a := ['l', 'o', 's', 's']) (v := .number loss) (g := false) (by simp [plain])
      have e4 := hh.num (a := ['n', 'g']) (v := .number ng) (g := false) (by simp [plain])
      have e5 := hh.num (a := ['l', 'e', 'n', 'g', 't', 'h']) (v := .number length) (g := false) (by simp [plain])
      have e6 := hh.num (a := ['p', 'h', 'a', 's', 'e'])
        (v := if tp then .param (if tp then modTwoPi φ + added δs ['p', 'h', 'a', 's', 'e'] else modTwoPi φ)
          else .buffer (if tp then modTwoPi φ + added δs ['p', 'h', 'a', 's', 'e'] else modTwoPi φ)) (g := tp) (by simp [paramOrBuffer])
      have e7 := hh.num (a := ['c', 'o', 'u', 'p', 'l', 'i', 'n', 'g']) (v := v) (g := g) (by simp)
      have hv : (δs.foldl Obj.train o₁).dev = .ok (devOf (passive 4) (fun _ => longCouplerSet length (seen v).toReal loss
          (if tp then modTwoPi φ + added δs ['p', 'h', 'a', 's', 'e'] else modTwoPi φ)) (lengthDelay ng length)) := by
        unfold Obj.dev
        rw [hk, h3]
        simp only
        rw [e1, e4, e5, e6, e7]
        cases tp <;> rfl
      refine ⟨.longCoupler length (seen v).toReal loss neff wl0 ng (if tp then φ + added δs ['p', 'h', 'a', 's', 'e'] else φ), ?_,
        .longCoupler .., ?_, fun _ h => ⟨(l4 ⟨h.1, h.2.1⟩).1, (l4 ⟨h.1, h.2.1⟩).2, h.2.2⟩, fun hx => l4 hx,
        fun h => by rw [h]; rfl, l5⟩
      · rw [hv]
        congr 1
        show _ = devOf (passive 4) (fun _ => longCouplerS length (seen v).toReal loss _) (lengthDelay ng length)
        congr 1
        funext wl
        cases tp with
        | true => exact longCoupler_shift ..
        | false =>
          have := longCoupler_shift length (seen v).toReal loss φ 0
          rw [add_zero, add_zero] at this
          exact this
      · rintro (ht | hn)
        · rw [l2 ht.2]; cases (show tp = false from ht.1); rfl
        · rw [l3 hn, hn]; simp only [added, List.map_nil, List.sum_nil, add_zero, ite_self]; rfl
  | realisticCoupler length k0 n0 d1k d1n d2k d2n wl0 =>
    obtain ⟨o₁, h1, h2, h3, -⟩ := blank_assign .realisticCoupler [plain ['l', 'e', 'n', 'g', 't', 'h'] length, plain ['k', '0'] k0,
      plain ['d', 'e', '1', '_', 'k', '0'] d1k, plain ['d', 'e', '2', '_', 'k', '0'] d2k, plain ['n', '0'] n0,
      plain ['d', 'e', '1', '_', 'n', '0'] d1n, plain ['d', 'e', '2', '_', 'n', '0'] d2n, plain ['w', 'l', '0'] wl0]
      (by simp only [plain, List.forall_mem_cons]; decide) (by simp only [plain, List.map_cons, List.map_nil]; decide)
    obtain rfl : o₁ = o := ok_inj (h1.symm.trans h)
    have hh := history_holds h2 δs
    simp only [List.map_cons, List.map_nil, later_plain] at hh
    have e1 := hh.num (a := ['l', 'e', 'n', 'g', 't', 'h']) (v := .number length) (g := false) (by simp [plain])
    have e2 := hh.num (a := ['k', '0']) (v := .number k0) (g := false) (by simp [plain])
    have e3 := hh.num (a := ['d', 'e', '1', '_', 'k', '0']) (v := .number d1k) (g := false) (by simp [plain])
    have e4 := hh.num (a := ['d', 'e', '2', '_', 'k', '0']) (v := .number d2k) (g := false) (by simp [plain])
    have e5 := hh.num (a := ['n', '0']) (v := .number n0) (g := false) (by simp [plain])
    have e6 := hh.num (a := ['d', 'e', '1', '_', 'n', '0']) (v := .number d1n) (g := false) (by simp [plain])
    have e7 := hh.num (a := ['d', 'e', '2', '_', 'n', '0']) (v := .number d2n) (g := false) (by simp [plain])
    have e8 := hh.num (a := ['w', 'l', '0']) (v := .number wl0) (g := false) (by simp [plain])
    refine ⟨.realisticCoupler length k0 n0 d1k d1n d2k d2n wl0, ?_, .refl _, fun _ => rfl, fun _ h => h, fun h => h, trivial⟩
    unfold Obj.dev
    rw [hk, h3]
    simp only
    rw [e1, e2, e3, e4, e5, e6, e7, e8]
    rfl
  | mzi φ θ neff ng wl0 length loss t =>
    obtain ⟨o₁, h1, h2, h3, -⟩ := blank_assign .mzi [plain ['n', 'g'] ng, plain ['n', 'e', 'f', 'f'] neff,
      plain ['l', 'e', 'n', 'g', 't', 'h'] length,
      plain ['l', 'o', 's', 's'] loss, plain ['w', 'l', '0'] wl0, paramOrBuffer ['p', 'h', 'i'] φ t,
      paramOrBuffer ['t', 'h', 'e', 't', 'a'] θ t]
      (by simp only [plain, paramOrBuffer, List.forall_mem_cons]; decide)
      (by simp only [plain, paramOrBuffer, List.map_cons, List.map_nil]; decide)
    obtain rfl : o₁ = o := ok_inj (h1.symm.trans h)
    have hh := history_holds h2 δs
    simp only [List.map_cons, List.map_nil, later_plain, later_param] at hh
    have e1 := hh.num (a := ['l', 'o', 's', 's']) (v := .number loss) (g := false) (by simp [plain])
    have e2 := hh.num (a := ['n', 'e', 'f', 'f']) (v := .number neff) (g := false) (by simp [plain])
    have e3 := hh.num (a := ['w', 'l', '0']) (v := .number wl0) (g := false) (by simp [plain])
    have e4 := hh.num (a := ['n', 'g']) (v := .number ng) (g := false) (by simp [plain])
    have e5 := hh.num (a := ['l', 'e', 'n', 'g', 't', 'h']) (v := .number length) (g := false) (by simp [plain])
    have e6 := hh.num (a := ['p', 'h', 'i'])
      (v := if t then .param (if t then φ + added δs ['p', 'h', 'i'] else φ)
        else .buffer (if t then φ + added δs ['p', 'h', 'i'] else φ)) (g := t) (by simp [paramOrBuffer])
    have e7 := hh.num (a := ['t', 'h', 'e', 't', 'a'])
      (v := if t then .param (if t then θ + added δs ['t', 'h', 'e', 't', 'a'] else θ)
        else .buffer (if t then θ + added δs ['t', 'h', 'e', 't', 'a'] else θ)) (g := t) (by simp [paramOrBuffer])
    refine ⟨.mzi (if t then φ + added δs ['p', 'h', 'i'] else φ) (if t then θ + added δs ['t', 'h', 'e', 't', 'a'] else θ) neff ng wl0 length loss,
      ?_, .mzi .., ?_, fun _ h => h, fun h => h, ?_⟩
    · unfold Obj.dev
      rw [hk, h3]
      simp only
      rw [e1, e2, e3, e4, e5, e6, e7]
      cases t <;> rfl
    · rintro (ht | rfl)
      · cases (show t = false from ht); rfl
      · simp only [added, List.map_nil, List.sum_nil, add_zero, ite_self]; rfl
    · cases t with
      | false => trivial
      | true => exact ⟨rfl, rfl⟩
  | grating R Rin Tmax bw wl0 =>
    obtain ⟨o₁, h1, h2, h3, -⟩ := blank_assign .grating [plain ['R'] R, plain ['R', '_', 'i', 'n'] Rin,
      plain ['b', 'a', 'n', 'd', 'w', 'i', 'd', 't', 'h'] bw, plain ['w', 'l', '0'] wl0, plain ['T', 'm', 'a', 'x'] Tmax]
      (by simp only [plain, List.forall_mem_cons]; decide) (by simp only [plain, List.map_cons, List.map_nil]; decide)
    obtain rfl : o₁ = o := ok_inj (h1.symm.trans h)
    have hh := history_holds h2 δs
    simp only [List.map_cons, List.map_nil, later_plain] at hh
    have e1 := hh.num (a := ['R']) (v := .number R) (g := false) (by simp [plain])
    have e2 := hh.num (a := ['R', '_', 'i', 'n']) (v := .number Rin) (g := false) (by simp [plain])
    have e3 := hh.num (a := ['b', 'a', 'n', 'd', 'w', 'i', 'd', 't', 'h']) (v := .number bw) (g := false) (by simp [plain])
    have e4 := hh.num (a := ['w', 'l', '0']) (v := .number wl0) (g := false) (by simp [plain])
    have e5 := hh.num (a := ['T', 'm', 'a', 'x']) (v := .number Tmax) (g := false) (by simp [plain])
    refine ⟨.grating R Rin Tmax bw wl0, ?_, .refl _, fun _ => rfl, fun _ h => h, fun h => h, trivial⟩
    unfold Obj.dev
    rw [hk, h3]
    simp only
    rw [e1, e2, e3, e4, e5]
    rfl
  | linearSoa a t =>
    obtain ⟨o₁, h1, h2, h3, -⟩ := blank_assign .linearSoa
      [paramOrBuffer ['a', 'm', 'p', 'l', 'i', 'f', 'i', 'c', 'a', 't', 'i', 'o', 'n'] a t]
      (by simp only [paramOrBuffer, List.forall_mem_cons]; decide) (by simp)
    obtain rfl : o₁ = o := ok_inj (h1.symm.trans h)
    have hh := history_holds h2 δs
    simp only [List.map_cons, List.map_nil, later_param] at hh
    have e1 := hh.num (List.mem_cons_self)
    refine ⟨.linearSoa (if t then a + added δs ['a', 'm', 'p', 'l', 'i', 'f', 'i', 'c', 'a', 't', 'i', 'o', 'n'] else a), ?_, .linearSoa .., ?_,
      fun h => h.elim, fun _ => trivial, ?_⟩
    · unfold Obj.dev
      rw [hk, h3]
      simp only
      rw [e1]
      cases t <;> rfl
    · rintro (ht | rfl)
      · cases (show t = false from ht); rfl
      · simp only [added, List.map_nil, List.sum_nil, add_zero, ite_self]; rfl
    · cases t with
      | false => trivial
      | true => exact rfl
  | mmi m n w t =>
    cases ok_inj h
    have key : ∀ (δs : List ((Str → ℝ) × (ℕ → ℕ → ℕ → ℝ))) (re im : Matrix (Fin m) (Fin n) ℝ) (a : Attrs), ∃ re' im' a',
        δs.foldl Obj.train ⟨.mmi, a, setKey (fun _ => false) ['w', 'e', 'i', 'g', 'h', 't', 's'] t, some (mmiPair re im)⟩ =
          ⟨.mmi, a', setKey (fun _ => false) ['w', 'e', 'i', 'g', 'h', 't', 's'] t, some (mmiPair re' im')⟩ ∧
        (t = false ∨ δs = [] → re' = re ∧ im' = im) ∧ (t = true → ∀ i j, re' i j = re i j + (δs.map fun δ => δ.2 0 i j).sum ∧
          im' i j = im i j + (δs.map fun δ => δ.2 1 i j).sum) := by
      intro δs
      induction δs with
      | nil => intro re im a; exact ⟨re, im, a, rfl, fun _ => ⟨rfl, rfl⟩, fun _ i j => by simp⟩
      | cons δ δs ih =>
        intro re im a
        cases t with
        | false =>
          obtain ⟨re', im', a', h1, h2, -⟩ := ih re im _
          exact ⟨re', im', a', h1, fun _ => h2 (.inl rfl), fun h => by cases h⟩
        | true =>
          have e : (Obj.train ⟨.mmi, a, setKey (fun _ => false) ['w', 'e', 'i', 'g', 'h', 't', 's'] true, some (mmiPair re im)⟩ δ).weights =
              some (mmiPair (Matrix.of fun i j => re i j + δ.2 0 i j) (Matrix.of fun i j => im i j + δ.2 1 i j)) := by
            simp only [Obj.train, Option.map_some, setKey_same, if_true]
            congr 1
            unfold mmiPair
            congr 1
            funext k
            fin_cases k <;> rfl
          obtain ⟨re', im', a', h1, -, h3⟩ := ih _ _ (Obj.train ⟨.mmi, a, setKey (fun _ => false) ['w', 'e', 'i', 'g', 'h', 't', 's'] true,
            some (mmiPair re im)⟩ δ).attrs
          refine ⟨re', im', a', ?_, fun h => ?_, fun _ i j => ?_⟩
          · rw [List.foldl_cons, ← h1, ← e]
            rfl
          · rcases h with h | h <;> cases h
          · rw [(h3 rfl i j).1, (h3 rfl i j).2]
            simp only [Matrix.of_apply, List.map_cons, List.sum_cons, add_assoc, and_self]
    obtain ⟨re', im', a', h1, h2, h5⟩ := key δs (w.map Complex.re) (w.map Complex.im) {}
    refine ⟨.mmi m n re' im', ?_, .mmi .., fun h => ?_, fun h => h.elim, fun _ => trivial, ?_⟩
    · have : o' = _ := h1
      rw [this]
      rfl
    · obtain ⟨h3, h4⟩ := h2 h
      rw [h3, h4]; rfl
    · cases t with
      | false => trivial
      | true => exact fun i j hi hj _ _ => h5 rfl ⟨i, hi⟩ ⟨j, hj⟩

theorem boundedAttr_cases (a : Str) (x : ℝ) (t : Bool) :
    (0 ≤ x ∧ x ≤ 1 → ∃ q, boundedAttr a x t = .ok q) ∧ (¬(0 ≤ x ∧ x ≤ 1) → boundedAttr a x t = .error .valueError) := by
  refine ⟨fun h => ?_, fun h => ?_⟩
  · obtain ⟨p, hp, -⟩ := C46_value [x] 0 1 one_pos (by simpa using h)
    exact ⟨_, by rw [boundedAttr, hp]; rfl⟩
  · rw [boundedAttr, C46_rejected [x] 0 1 (.inr ⟨x, by simp, by
      by_contra hc
      push Not at hc
      exact h hc⟩)]
    rfl

theorem couplingAttr_cases (x : ℝ) (t : Bool) :
    ((t = true → 0 ≤ x ∧ x ≤ 1) → ∃ q, couplingAttr x t = .ok q) ∧
      (¬(t = true → 0 ≤ x ∧ x ≤ 1) → couplingAttr x t = .error .valueError) := by
  unfold couplingAttr
  cases t with
  | false => exact ⟨fun _ => ⟨_, rfl⟩, fun h => absurd (fun h' => absurd h' (by decide)) h⟩
  | true => exact ⟨fun h => (boundedAttr_cases _ x true).1 (h rfl), fun h => (boundedAttr_cases _ x true).2 fun h' => h fun _ => h'⟩

/-- C117: which arguments are accepted. -/
theorem C117_accepts (c : Call) : (Acceptable c → ∃ o, c.new = .ok o) ∧ (¬Acceptable c → c.new = .error .valueError) := by
  cases c with
  | term => exact ⟨fun _ => ⟨_, rfl⟩, fun h => absurd trivial h⟩
  | source => exact ⟨fun _ => ⟨_, rfl⟩, fun h => absurd trivial h⟩
  | detector => exact ⟨fun _ => ⟨_, rfl⟩, fun h => absurd trivial h⟩
  | connection => exact ⟨fun _ => ⟨_, rfl⟩, fun h => absurd trivial h⟩
  | mmi m n w t => exact ⟨fun _ => ⟨_, rfl⟩, fun h => absurd trivial h⟩
  | mirror R t =>
    obtain ⟨h1, h2⟩ := boundedAttr_cases ['R'] R t
    refine ⟨fun h => ?_, fun h => by simp only [Call.new]; rw [h2 h]; rfl⟩
    obtain ⟨q, hq⟩ := h1 h
    obtain ⟨w, rfl, -⟩ := boundedAttr_ok hq
    obtain ⟨o, ho, -⟩ := blank_assign .mirror [(['R'], .bounded w 0 1, t)] (by simp only [List.forall_mem_cons]; decide) (by simp)
    exact ⟨o, by simp only [Call.new]; rw [hq]; exact ho⟩
  | coupler k t =>
    obtain ⟨h1, h2⟩ := couplingAttr_cases k t
    refine ⟨fun h => ?_, fun h => by simp only [Call.new]; rw [h2 h]; rfl⟩
    obtain ⟨q, hq⟩ := h1 h
    have hpub : q.1 = ['c', 'o', 'u', 'p', 'l', 'i', 'n', 'g'] := by
      rcases couplingAttr_ok hq with ⟨-, rfl⟩ | ⟨-, w, rfl, -⟩ <;> rfl
    obtain ⟨o, ho, -⟩ := blank_assign .coupler [q] (by simp only [List.forall_mem_cons, hpub]; decide) (by simp)
    exact ⟨o, by simp only [Call.new]; rw [hq]; exact ho⟩
  | longCoupler length k loss neff wl0 ng φ tp tc =>
    obtain ⟨h1, h2⟩ := couplingAttr_cases k tc
    refine ⟨fun h => ?_, fun h => by simp only [Call.new]; rw [h2 h]; rfl⟩
    obtain ⟨q, hq⟩ := h1 h
    have hpub : q.1 = ['c', 'o', 'u', 'p', 'l', 'i', 'n', 'g'] := by
      rcases couplingAttr_ok hq with ⟨-, rfl⟩ | ⟨-, w, rfl, -⟩ <;> rfl
    obtain ⟨o, ho, -⟩ := blank_assign .longCoupler (lengthAttrs length loss neff wl0 ng ++
        [flag ['t', 'r', 'a', 'i', 'n', 'a', 'b', 'l', 'e', '_', 'p', 'h', 'a', 's', 'e'] tp,
          flag ['t', 'r', 'a', 'i', 'n', 'a', 'b', 'l', 'e', '_', 'c', 'o', 'u', 'p', 'l', 'i', 'n', 'g'] tc,
          paramOrBuffer ['p', 'h', 'a', 's', 'e'] (modTwoPi φ) tp, q])
      (by simp only [lengthAttrs, flag, plain, paramOrBuffer, List.cons_append, List.nil_append, List.forall_mem_cons, hpub]; decide)
      (by simp only [lengthAttrs, flag, plain, paramOrBuffer, List.cons_append, List.nil_append, List.map_cons, List.map_nil, hpub]; decide)
    exact ⟨o, by simp only [Call.new]; rw [hq]; exact ho⟩
  | waveguide length loss neff wl0 ng φ t =>
    obtain ⟨o, ho, -⟩ := blank_assign .waveguide (lengthAttrs length loss neff wl0 ng ++
      [flag ['t', 'r', 'a', 'i', 'n', 'a', 'b', 'l', 'e'] t, paramOrBuffer ['p', 'h', 'a', 's', 'e'] (modTwoPi φ) t])
      (by simp only [lengthAttrs, flag, plain, paramOrBuffer, List.cons_append, List.nil_append, List.forall_mem_cons]; decide)
      (by simp only [lengthAttrs, flag, plain, paramOrBuffer, List.cons_append, List.nil_append, List.map_cons, List.map_nil]; decide)
    exact ⟨fun _ => ⟨o, ho⟩, fun h => absurd trivial h⟩
  | realisticCoupler length k0 n0 d1k d1n d2k d2n wl0 =>
    obtain ⟨o, ho, -⟩ := blank_assign .realisticCoupler [plain ['l', 'e', 'n', 'g', 't', 'h'] length, plain ['k', '0'] k0,
      plain ['d', 'e', '1', '_', 'k', '0'] d1k, plain ['d', 'e', '2', '_', 'k', '0'] d2k, plain ['n', '0'] n0,
      plain ['d', 'e', '1', '_', 'n', '0'] d1n, plain ['d', 'e', '2', '_', 'n', '0'] d2n, plain ['w', 'l', '0'] wl0]
      (by simp only [plain, List.forall_mem_cons]; decide) (by simp only [plain, List.map_cons, List.map_nil]; decide)
    exact ⟨fun _ => ⟨o, ho⟩, fun h => absurd trivial h⟩
  | mzi φ θ neff ng wl0 length loss t =>
    obtain ⟨o, ho, -⟩ := blank_assign .mzi [plain ['n', 'g'] ng, plain ['n', 'e', 'f', 'f'] neff,
      plain ['l', 'e', 'n', 'g', 't', 'h'] length,
      plain ['l', 'o', 's', 's'] loss, plain ['w', 'l', '0'] wl0, paramOrBuffer ['p', 'h', 'i'] φ t,
      paramOrBuffer ['t', 'h', 'e', 't', 'a'] θ t]
      (by simp only [plain, paramOrBuffer, List.forall_mem_cons]; decide)
      (by simp only [plain, paramOrBuffer, List.map_cons, List.map_nil]; decide)
    exact ⟨fun _ => ⟨o, ho⟩, fun h => absurd trivial h⟩
  | grating R Rin Tmax bw wl0 =>
    obtain ⟨o, ho, -⟩ := blank_assign .grating [plain ['R'] R, plain ['R', '_', 'i', 'n'] Rin,
      plain ['b', 'a', 'n', 'd', 'w', 'i', 'd', 't', 'h'] bw, plain ['w', 'l', '0'] wl0, plain ['T', 'm', 'a', 'x'] Tmax]
      (by simp only [plain, List.forall_mem_cons]; decide) (by simp only [plain, List.map_cons, List.map_nil]; decide)
    exact ⟨fun _ => ⟨o, ho⟩, fun h => absurd trivial h⟩
  | linearSoa a t =>
    obtain ⟨o, ho, -⟩ := blank_assign .linearSoa
      [paramOrBuffer ['a', 'm', 'p', 'l', 'i', 'f', 'i', 'c', 'a', 't', 'i', 'o', 'n'] a t]
      (by simp only [paramOrBuffer, List.forall_mem_cons]; decide) (by simp)
    exact ⟨fun _ => ⟨o, ho⟩, fun h => absurd trivial h⟩

/-- C117: the object that a constructor makes behaves as its arguments say, whether or not it is trainable. -/
theorem C117_made (c : Call) (o : Obj) (h : c.new = .ok o) : o.dev = .ok (asked c).dev := by
  obtain ⟨p, h1, -, h2, -⟩ := trained_part c o h []
  rw [h2 (.inr rfl)] at h1
  exact h1

/-- C117: whatever is trained, a component keeps its class, its ports and all arguments that are not trainable, one which is not trainable
keeps everything, one whose trainable arguments are phases, couplings and reflectivities stays passive, couplings and reflectivities between zero
and one stay there, and trainable arguments follow the
optimizer. -/
theorem C117_trained (c : Call) (o : Obj) (h : c.new = .ok o) (δs : List ((Str → ℝ) × (ℕ → ℕ → ℕ → ℝ))) :
    ∃ p : Part, (δs.foldl Obj.train o).dev = .ok p.dev ∧ SameButTrained (asked c) p ∧ (Frozen c → p = asked c) ∧
      (Bounds c → PassivePart (asked c) → PassivePart p) ∧ (Ratios (asked c) → Ratios p) ∧ Moves δs c p := by
  obtain ⟨p, h1, h2, h3, h4, h5, h6⟩ := trained_part c o h δs
  exact ⟨p, h1, h2, fun h => h3 (.inl h), h4, h5, h6⟩

theorem same_comp {p q : Part} (h : SameButTrained p q) : q.comp = p.comp ∧ q.n = p.n ∧ ∀ v, q.delay v = p.delay v := by
  cases h <;> exact ⟨rfl, rfl, fun _ => rfl⟩

theorem same_dev {p q : Part} (h : SameButTrained p q) : q.dev.comp = p.dev.comp ∧ q.dev.delay = p.dev.delay := by
  obtain ⟨h1, h2, h3⟩ := same_comp h
  refine ⟨h1, ?_⟩
  unfold Part.dev
  simp only [h2, h3]

theorem trained_net {name : Option Str} {ms : List (Str × Dev × Dev)} {cs : List Str}
    (hs : ∀ m ∈ ms, m.2.2.comp = m.2.1.comp ∧ m.2.2.delay = m.2.1.delay) {d : Dev}
    (hd : mkDev name (ms.map fun m => (m.1, m.2.1)) cs = .ok d) :
    ∃ d', mkDev name (ms.map fun m => (m.1, m.2.2)) cs = .ok d' ∧ d'.comp = d.comp ∧ d'.delay = d.delay := by
  unfold mkDev at hd ⊢
  have e : (ms.map fun m => (m.1, m.2.2)).map (fun p => (p.1, p.2.comp)) = (ms.map fun m => (m.1, m.2.1)).map fun p => (p.1, p.2.comp) := by
    rw [List.map_map, List.map_map]
    refine List.map_congr_left fun m hm => ?_
    simp only [Function.comp_apply, (hs m hm).1]
  rw [e]
  cases hc : mkNet name ((ms.map fun m => (m.1, m.2.1)).map fun p => (p.1, p.2.comp)) cs with
  | error e => rw [hc] at hd; cases hd
  | ok c =>
    rw [hc] at hd
    simp only [Except.map, Except.ok.injEq] at hd ⊢
    refine ⟨_, rfl, by rw [← hd]; rfl, ?_⟩
    rw [← hd]
    simp only [netDev]
    funext v
    congr 1
    have hu : ∀ (f : Dev × Dev → Dev), (usedDevs (ms.map fun m => (m.1, f m.2)) (usedNames (cs.map stripConn))).map
        (fun p => (p.2.comp.n, p.2.delay v)) = (usedNames (cs.map stripConn)).filterMap fun x =>
          (dictGet x ms).map fun q => ((f q).comp.n, (f q).delay v) := by
      intro f
      unfold usedDevs
      rw [List.map_filterMap]
      congr 1
      funext x
      rw [dictGet_map f]
      cases dictGet x ms <;> rfl
    rw [hu Prod.snd, hu Prod.fst]
    congr 1
    funext x
    cases hx : dictGet x ms with
    | none => rfl
    | some q =>
      obtain ⟨h1, h2⟩ := hs _ (dictGet_mem hx)
      simp only [Option.map_some]
      simp only at h1 h2
      rw [h1, h2]

/-- C117: training changes neither the ports, connections, sources and detectors of a circuit nor its delays; a network of components that
could be built can be built again from the trained ones. -/
theorem C117_circuit (P : Call → Prop) (d d' : Dev) (h : Trained P d d') : d'.comp = d.comp ∧ d'.delay = d.delay := by
  induction h with
  | part c o d d' δs _ _ ho hd hd' =>
    rw [C117_made c o ho] at hd
    obtain ⟨p, h1, h2, -⟩ := C117_trained c o ho δs
    cases ok_inj hd
    cases ok_inj (h1.symm.trans hd')
    exact same_dev h2
  | named d d' x _ ih => exact ⟨by simp only [ih.1], ih.2⟩
  | net name ms cs d d' _ _ _ _ hd hd' ih =>
    obtain ⟨e, h1, h2, h3⟩ := trained_net ih hd
    cases ok_inj (h1.symm.trans hd')
    exact ⟨h2, h3⟩

/-- C117: a circuit that could be built can be built again from the trained components. -/
theorem C117_rebuilt (P : Call → Prop) (name : Option Str) (ms : List (Str × Dev × Dev)) (cs : List Str)
    (h : ∀ m ∈ ms, Trained P m.2.1 m.2.2) (d : Dev) (hd : mkDev name (ms.map fun m => (m.1, m.2.1)) cs = .ok d) :
    ∃ d', mkDev name (ms.map fun m => (m.1, m.2.2)) cs = .ok d' := by
  obtain ⟨d', h1, -⟩ := trained_net (fun m hm => C117_circuit P _ _ (h m hm)) hd
  exact ⟨d', h1⟩

/-- The components of a trained circuit. -/
theorem trained_made {P : Call → Prop} {d d' : Dev} (h : Trained P d d') :
    MadeOf (fun p => ∃ c, P c ∧ p = asked c) d ∧ MadeOf (fun p => ∃ c, P c ∧ SameButTrained (asked c) p ∧ (Frozen c → p = asked c) ∧
      (Bounds c → PassivePart (asked c) → PassivePart p)) d' := by
  induction h with
  | part c o d d' δs hP hn ho hd hd' =>
    rw [C117_made c o ho] at hd
    obtain ⟨p, h1, h2, h3, h4, -⟩ := C117_trained c o ho δs
    cases ok_inj hd
    cases ok_inj (h1.symm.trans hd')
    exact ⟨.part _ ⟨c, hP, rfl⟩ hn, .part _ ⟨c, hP, h2, h3, h4⟩ (by rw [(same_comp h2).2.1]; exact hn)⟩
  | named d d' x _ ih => exact ⟨.named _ _ ih.1, .named _ _ ih.2⟩
  | net name ms cs d d' _ hg hu hc hd hd' ih =>
    refine ⟨.net name _ cs d ?_ hg hu hc hd, .net name _ cs d' ?_ hg hu hc hd'⟩
    · intro p hp
      obtain ⟨m, hm, rfl⟩ := List.mem_map.1 hp
      exact (ih m hm).1
    · intro p hp
      obtain ⟨m, hm, rfl⟩ := List.mem_map.1 hp
      exact (ih m hm).2

/-- The calls for which training is harmless: all but amplifiers, `Mmi`s and grating couplers, with arguments in their documented ranges. -/
def Harmless (c : Call) : Prop :=
  Bounds c ∧ PassivePart (asked c) ∧ ∀ R Rin T bw wl0, c ≠ .grating R Rin T bw wl0

theorem trained_contracts {d d' : Dev} (h : Trained Harmless d d') : MadeOf (fun p => ∀ wl, Contracts (scattering p wl)) d' := by
  refine Spec.MadeOf.mono (fun p hp => ?_) (trained_made h).2
  obtain ⟨c, ⟨h1, h2, h3⟩, h4, -, h5⟩ := hp
  refine C65_contracts_partial p (h5 h1 h2) ?_
  intro R Rin T bw wl0 hg
  subst hg
  cases c <;> simp only [asked] at h4 <;> first | (cases h4; done) | skip
  cases h4
  exact h3 _ _ _ _ _ rfl

/-- C117: training keeps components passive. -/
def C117 : Prop := ∀ (c : Call) (o : Obj), c.new = .ok o → (∀ wl, Contracts (scattering (asked c) wl)) →
  ∀ (δs : List ((Str → ℝ) × (ℕ → ℕ → ℕ → ℝ))) (p : Part), (δs.foldl Obj.train o).dev = .ok p.dev → ∀ wl, Contracts (scattering p wl)

/-- C117 for circuits, whatever the histories of training: no more energy is detected than injected. Missing: amplifiers and `Mmi`s, for which
it is false, and grating couplers, which are not passive to begin with (C65) and not trainable. -/
theorem C117_passive_partial {W B : Type} (d d' : Dev) (h : Trained Harmless d d') (ht : d.comp.terminated = true) (v : ℝ) (wl : W → ℝ)
    (env : SimEnv) (dt : ℝ) (hdt : env.dt = some dt) (hpos : 0 < dt) (hf : env.freqdomain = false) (hd : portsWith (d.plant v wl).det ≠ [])
    (r : Reduced W) (hr : initNet (d'.plant v wl) env = .ok (some r)) (cs : List (Actor W B)) (src : ℕ → ℕ → W → B → ℝ × ℝ) :
    ∃ out, forwardPower r env cs src = .ok out ∧ out.length = env.t.length ∧
      ∀ w b, ∀ n ≤ env.t.length, ((out.take n).map fun f => (f w b).sum).sum ≤
        ∑ t ∈ Finset.range n, ∑ k ∈ Finset.range (portsWith (d.plant v wl).src).length,
          ((src t k w b).1 ^ 2 + (src t k w b).2 ^ 2) := by
  obtain ⟨c, rS, iS, delay⟩ := d
  obtain ⟨c', rS', iS', delay'⟩ := d'
  obtain ⟨rfl, rfl⟩ : c' = c ∧ delay' = delay := C117_circuit _ _ _ h
  exact C66_energy ⟨c', rS', iS', delay'⟩ (trained_contracts h) ht v wl env dt hdt hpos hf hd r hr cs src

theorem splitter_power (x : ℝ) (wl : ℝ) (v : Fin 3 → ℂ) :
    power (scattering (.mmi 1 2 (Matrix.of fun _ _ => x) 0) wl *ᵥ v) =
      x ^ 2 * (Complex.normSq (v 1 + v 2) + 2 * Complex.normSq (v 0)) := by
  have e0 : (scattering (.mmi 1 2 (Matrix.of fun _ _ => x) 0) wl *ᵥ v) (0 : Fin 3) = x * (v 1 + v 2) := by
    simp only [Matrix.mulVec, dotProduct]
    refine (Fin.sum_univ_three (fun j : Fin 3 => scattering (.mmi 1 2 (Matrix.of fun _ _ => x) 0) wl (0 : Fin 3) j * v j)).trans ?_
    apply Complex.ext <;> simp [scattering, cx, Part.S, mmiS] <;> ring
  have e1 : (scattering (.mmi 1 2 (Matrix.of fun _ _ => x) 0) wl *ᵥ v) (1 : Fin 3) = x * v 0 := by
    simp only [Matrix.mulVec, dotProduct]
    refine (Fin.sum_univ_three (fun j : Fin 3 => scattering (.mmi 1 2 (Matrix.of fun _ _ => x) 0) wl (1 : Fin 3) j * v j)).trans ?_
    apply Complex.ext <;> simp [scattering, cx, Part.S, mmiS]
  have e2 : (scattering (.mmi 1 2 (Matrix.of fun _ _ => x) 0) wl *ᵥ v) (2 : Fin 3) = x * v 0 := by
    simp only [Matrix.mulVec, dotProduct]
    refine (Fin.sum_univ_three (fun j : Fin 3 => scattering (.mmi 1 2 (Matrix.of fun _ _ => x) 0) wl (2 : Fin 3) j * v j)).trans ?_
    apply Complex.ext <;> simp [scattering, cx, Part.S, mmiS]
  unfold power
  refine (Fin.sum_univ_three (fun j : Fin 3 => Complex.normSq ((scattering (.mmi 1 2 (Matrix.of fun _ _ => x) 0) wl *ᵥ v) j))).trans ?_
  rw [e0, e1, e2, Complex.normSq_mul, Complex.normSq_mul, Complex.normSq_ofReal]
  ring

/-- C117 is false: one step of training may turn a balanced splitter into an amplifier. -/
theorem C117_violation : ¬C117 := by
  intro hC
  have h0 : ∀ wl, Contracts (scattering (.mmi 1 2 ((Matrix.of fun _ _ => ((√(1 / 2) : ℝ) : ℂ) : Matrix (Fin 1) (Fin 2) ℂ).map Complex.re)
      ((Matrix.of fun _ _ => ((√(1 / 2) : ℝ) : ℂ) : Matrix (Fin 1) (Fin 2) ℂ).map Complex.im)) wl) := by
    intro wl v
    have e1 : (Matrix.of fun _ _ => ((√(1 / 2) : ℝ) : ℂ) : Matrix (Fin 1) (Fin 2) ℂ).map Complex.re = Matrix.of fun _ _ => √(1 / 2) := by
      ext i j; exact Complex.ofReal_re _
    have e2 : (Matrix.of fun _ _ => ((√(1 / 2) : ℝ) : ℂ) : Matrix (Fin 1) (Fin 2) ℂ).map Complex.im = 0 := by
      ext i j; simp
    rw [e1, e2, splitter_power, Real.sq_sqrt (by norm_num)]
    have e3 : power v = Complex.normSq (v (0 : Fin 3)) + Complex.normSq (v (1 : Fin 3)) + Complex.normSq (v (2 : Fin 3)) :=
      Fin.sum_univ_three (fun j : Fin 3 => Complex.normSq (v j))
    rw [e3, Complex.normSq_apply, Complex.normSq_apply, Complex.normSq_apply, Complex.normSq_apply]
    simp only [Complex.add_re, Complex.add_im]
    nlinarith [sq_nonneg ((v (1 : Fin 3)).re - (v (2 : Fin 3)).re), sq_nonneg ((v (1 : Fin 3)).im - (v (2 : Fin 3)).im)]
  have h1 := hC (.mmi 1 2 (Matrix.of fun _ _ => ((√(1 / 2) : ℝ) : ℂ)) true) _ rfl h0
    [(fun _ => 0, fun k _ _ => if k = 0 then 1 - √(1 / 2) else 0)] (.mmi 1 2 (Matrix.of fun _ _ => 1) 0) ?_ 0 (![1, 0, 0] : Fin 3 → ℂ)
  · rw [splitter_power] at h1
    have e3 : power (![1, 0, 0] : Fin 3 → ℂ) = 1 := by simp [power, Fin.sum_univ_three]
    have e4 : power (![1, 0, 0] : Fin (Part.mmi 1 2 (Matrix.of fun _ _ => 1) 0).n → ℂ) = 1 := e3
    rw [e4] at h1
    norm_num at h1
    linarith [Complex.normSq_nonneg ((![1, 0, 0] : Fin 3 → ℂ) 2)]
  · have ew : (Obj.train ⟨.mmi, {}, setKey (fun _ => false) ['w', 'e', 'i', 'g', 'h', 't', 's'] true,
        some (mmiPair ((Matrix.of fun _ _ => ((√(1 / 2) : ℝ) : ℂ) : Matrix (Fin 1) (Fin 2) ℂ).map Complex.re)
          ((Matrix.of fun _ _ => ((√(1 / 2) : ℝ) : ℂ) : Matrix (Fin 1) (Fin 2) ℂ).map Complex.im))⟩
        (fun _ => 0, fun k _ _ => if k = 0 then 1 - √(1 / 2) else 0)).weights =
        some (mmiPair (m := 1) (n := 2) (Matrix.of fun _ _ => 1) 0) := by
      simp only [Obj.train, Option.map_some, setKey_same, if_true]
      congr 1
      unfold mmiPair
      congr 1
      funext k
      fin_cases k
      · ext i j
        show ((√(1 / 2) : ℝ) : ℂ).re + (if (0 : ℕ) = 0 then 1 - √(1 / 2) else 0) = 1
        rw [Complex.ofReal_re, if_pos rfl]
        ring
      · ext i j; simp
    unfold Obj.dev
    have hk : ∀ (o : Obj) δ, (List.foldl Obj.train o [δ]).kind = o.kind := fun _ _ => rfl
    have hw : ∀ (o : Obj) δ, (List.foldl Obj.train o [δ]).weights = (o.train δ).weights := fun _ _ => rfl
    rw [hk]
    simp only
    rw [hw, ew]
    rfl

/-- Training a coupler with length: the coupling stays between zero and one, the delay remains. -/
example (δs : List ((Str → ℝ) × (ℕ → ℕ → ℕ → ℝ))) : ∃ o p, (Call.longCoupler 1e-5 0.3 100 2.34 1.55e-6 3.4 7 true true).new = .ok o ∧
    (δs.foldl Obj.train o).dev = .ok p.dev ∧ PassivePart p ∧
    ∀ v, p.delay v = (Part.longCoupler 1e-5 0.3 100 2.34 1.55e-6 3.4 7).delay v := by
  have hn := (C117_accepts (Call.longCoupler 1e-5 0.3 100 2.34 1.55e-6 3.4 7 true true)).1 (fun _ => by norm_num)
  obtain ⟨o, ho⟩ := hn
  obtain ⟨p, h1, h2, -, h4, -⟩ := C117_trained _ o ho δs
  exact ⟨o, p, ho, h1, h4 trivial (by refine ⟨?_, ?_, ?_, ?_⟩ <;> norm_num), (same_comp h2).2.2⟩

/-! ## A circuit satisfying the hypotheses -/

/-- The line of C66 with another phase in its waveguide. -/
noncomputable def exLineWith (φ : ℝ) : List (Str × Dev) :=
  [(['a'], Part.source.dev), (['w'], (Part.waveguide 1e-5 100 2.34 1.55e-6 3.4 φ).dev), (['b'], Part.detector.dev)]

theorem exLineWith_dev (φ : ℝ) : ∃ d, mkDev none (exLineWith φ) (exLineCs.map Conn.text) = .ok d ∧
    d.comp.n = 4 ∧ d.comp.det = [false, false, false, true] ∧
    d.comp.terminated = true ∧ FeedForward d (fun i => i % 2 == 1) (fun i => (i + 1) / 2) := by
  obtain ⟨c, c', hc, -, -, hn, hs, hdt, ht, hC⟩ := exLine_nets
  have hu : usedDevs (exLineWith φ) (usedNames ((exLineCs.map Conn.text).map stripConn)) = exLineWith φ := by
    have h : usedNames ((exLineCs.map Conn.text).map stripConn) = [['a'], ['w'], ['b']] := by decide +kernel
    rw [h]
    rfl
  refine ⟨netDev c (exLineWith φ), ?_, hn, hdt, ht, ?_⟩
  · unfold mkDev
    rw [hu]
    exact congrArg (Except.map fun c => netDev c (exLineWith φ)) hc
  · constructor
    · intro wl i j hi hj h
      change i < c.n at hi
      change j < c.n at hj
      rw [hn] at hi hj
      have key : ∀ A M B : ℕ → ℕ → ℝ, A 0 0 = 0 → B 0 0 = 0 → M 0 0 = 0 → M 1 1 = 0 →
          blockMat [(1, A), (2, M), (1, B)] i j ≠ 0 → (i = 1 ∧ j = 2) ∨ (i = 2 ∧ j = 1) := by
        intro A M B hA hB hM hM' h
        have hi' : i = 0 ∨ i = 1 ∨ i = 2 ∨ i = 3 := by omega
        have hj' : j = 0 ∨ j = 1 ∨ j = 2 ∨ j = 3 := by omega
        rcases hi' with rfl | rfl | rfl | rfl <;> rcases hj' with rfl | rfl | rfl | rfl <;>
          simp [blockMat, hA, hB, hM, hM'] at h ⊢
      have hz : ∀ k, (hk : k < 2) → cx (waveguideS 1e-5 100 2.34 1.55e-6 3.4 φ wl).re
          (waveguideS 1e-5 100 2.34 1.55e-6 3.4 φ wl).im ⟨k, hk⟩ ⟨k, hk⟩ = 0 := by
        intro k hk
        rw [waveguide_shape]
        have : k = 0 ∨ k = 1 := by omega
        rcases this with rfl | rfl <;> rfl
      have z0 := hz 0 (by omega)
      have z1 := hz 1 (by omega)
      have : (i = 1 ∧ j = 2) ∨ (i = 2 ∧ j = 1) := by
        rcases h with h | h
        · exact key _ _ _ rfl rfl (congrArg Complex.re z0) (congrArg Complex.re z1) h
        · exact key _ _ _ rfl rfl (congrArg Complex.im z0) (congrArg Complex.im z1) h
      rcases this with ⟨rfl, rfl⟩ | ⟨rfl, rfl⟩ <;> decide
    · intro i j h
      rcases hC i j h with ⟨rfl, rfl⟩ | ⟨rfl, rfl⟩ | ⟨rfl, rfl⟩ | ⟨rfl, rfl⟩ <;> decide

/-- Training the phase of the waveguide of a line from `1` to `1 + s`. -/
theorem exLine_trained (s : ℝ) : ∃ d d', Trained Harmless d d' ∧
    mkDev none (exLineWith 1) (exLineCs.map Conn.text) = .ok d ∧ mkDev none (exLineWith (1 + s)) (exLineCs.map Conn.text) = .ok d' := by
  obtain ⟨d, hd, -⟩ := exLineWith_dev 1
  obtain ⟨d', hd', -⟩ := exLineWith_dev (1 + s)
  refine ⟨d, d', ?_, hd, hd'⟩
  refine .net none [(['a'], Part.source.dev, Part.source.dev), (['w'], (Part.waveguide 1e-5 100 2.34 1.55e-6 3.4 1).dev,
    (Part.waveguide 1e-5 100 2.34 1.55e-6 3.4 (1 + s)).dev), (['b'], Part.detector.dev, Part.detector.dev)] exLineCs d d' ?_
    (goodConns_dec (by decide +kernel)) ⟨by decide, by decide⟩ ⟨by decide, by decide, by decide⟩ hd hd'
  intro m hm
  simp only [List.mem_cons, List.not_mem_nil, or_false] at hm
  rcases hm with rfl | rfl | rfl
  · obtain ⟨o, ho⟩ := (C117_accepts .source).1 trivial
    exact .part .source o _ _ [] ⟨trivial, trivial, by simp⟩ Nat.one_pos ho (C117_made _ o ho) (C117_made _ o ho)
  · obtain ⟨o, ho⟩ := (C117_accepts (.waveguide 1e-5 100 2.34 1.55e-6 3.4 1 true)).1 trivial
    obtain ⟨p, h1, h2, -, -, -, h5⟩ := C117_trained _ o ho [(fun _ => s, fun _ _ _ => 0)]
    refine .part (.waveguide 1e-5 100 2.34 1.55e-6 3.4 1 true) o _ _ [(fun _ => s, fun _ _ _ => 0)]
      ⟨trivial, by constructor <;> norm_num, by simp⟩ Nat.two_pos ho (C117_made _ o ho) ?_
    have : p = .waveguide 1e-5 100 2.34 1.55e-6 3.4 (1 + s) := by
      simp only [asked] at h2
      generalize hq : Part.waveguide 1e-5 100 2.34 1.55e-6 3.4 1 = q at h2
      cases h2 with
      | refl => subst hq; simp [Moves, added] at h5; rw [h5, add_zero]
      | waveguide l a b c d e φ' => cases hq; simp [Moves, added] at h5; rw [h5]
      | _ => cases hq
    rw [h1, this]
  · obtain ⟨o, ho⟩ := (C117_accepts .detector).1 trivial
    exact .part .detector o _ _ [] ⟨trivial, trivial, by simp⟩ Nat.one_pos ho (C117_made _ o ho) (C117_made _ o ho)

/-- The trained line detects no more energy than is injected, and has the delays of the line before. -/
example {W B : Type} (s v : ℝ) (wl : W → ℝ) (t : List ℝ) (src : ℕ → ℕ → W → B → ℝ × ℝ) :
    ∃ (d d' : Dev) (r : Reduced W), mkDev none (exLineWith (1 + s)) (exLineCs.map Conn.text) = .ok d' ∧ d'.delay = d.delay ∧
      initNet (d'.plant v wl) ⟨some 1e-14, false, t⟩ = .ok (some r) ∧
      ∃ out, forwardPower r ⟨some 1e-14, false, t⟩ ([] : List (Actor W B)) src = .ok out ∧ out.length = t.length := by
  obtain ⟨d, d', h, hd, hd'⟩ := exLine_trained s
  obtain ⟨e, he, hn, hdt, ht, -⟩ := exLineWith_dev 1
  cases ok_inj (hd.symm.trans he)
  obtain ⟨e', he', hn', hdt', ht', hff⟩ := exLineWith_dev (1 + s)
  cases ok_inj (hd'.symm.trans he')
  obtain ⟨r, hr⟩ := C75_initialized _ d' (trained_contracts h) ht' _ _ hff v wl ⟨some 1e-14, false, t⟩
    ⟨⟨3, by show 3 < d'.comp.n; omega⟩, by simp [Dev.plant, hdt']⟩
  obtain ⟨out, h1, h2, -⟩ := C117_passive_partial d d' h ht v wl _ 1e-14 rfl (by norm_num) rfl (exLine_det hn hdt v wl) r hr [] src
  exact ⟨d, d', r, hd', (C117_circuit _ _ _ h).2, hr, out, h1, h2⟩

end PT
