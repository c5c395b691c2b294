import Verif.Props.EnvCopy
import Verif.Props.Ports

/-!
# Exact conditions for C12 and C16
-/

namespace PT
open Spec

/-! ## C12 -/

theorem firstStep_take {l l' : List ℚ} (hl : l ≠ []) : (l.headD 0 = l'.headD 0 ∧ l.length = l'.length ∧ firstStep l = firstStep l') ↔
    l.length = l'.length ∧ l.take 2 = l'.take 2 := by
  rcases l with _ | ⟨x, _ | ⟨y, l⟩⟩
  · exact absurd rfl hl
  · rcases l' with _ | ⟨x', _ | ⟨y', l'⟩⟩ <;> simp [firstStep]
  · rcases l' with _ | ⟨x', _ | ⟨y', l'⟩⟩
    · simp [firstStep]
    · simp [firstStep]
    · simp only [firstStep, List.headD_cons, Option.some.injEq, List.length_cons, Nat.add_right_cancel_iff, List.take_succ_cons,
        List.take_zero, List.cons.injEq, and_true]
      constructor
      · rintro ⟨rfl, h, h'⟩; exact ⟨h, rfl, by linarith⟩
      · rintro ⟨h, rfl, rfl⟩; exact ⟨rfl, h, rfl⟩

/-- The point after the last one, if there are two. -/
def following (l : List ℚ) : Option ℚ :=
  match l.reverse with
  | x :: y :: _ => some (2 * x - y)
  | _ => none

theorem gridEnd_following (l : List ℚ) : gridEnd l = following l := by
  obtain ⟨r, rfl⟩ : ∃ r : List ℚ, l = r.reverse := ⟨l.reverse, by simp⟩
  unfold gridEnd following lastD last2D
  rw [List.reverse_reverse]
  rcases r with _ | ⟨x, _ | ⟨y, r⟩⟩
  · simp
  · simp
  · have e : (x :: y :: r).reverse = (r.reverse ++ [y]) ++ [x] := by simp
    rw [e, if_neg (by simp), List.dropLast_concat, List.getLastD_concat, List.getLastD_concat]
    simp only [Option.some.injEq]
    ring

theorem timeEnd_last {l l' : List ℚ} (hl : l ≠ []) (h : l.length = l'.length) (h2 : l.take 2 = l'.take 2) :
    timeEnd l = timeEnd l' ↔ l.getLast? = l'.getLast? := by
  unfold timeEnd lastD
  rcases l with _ | ⟨x, _ | ⟨y, l⟩⟩
  · exact absurd rfl hl
  · rcases l' with _ | ⟨x', _ | ⟨y', l'⟩⟩
    · simp at h
    · simp at h2; simp [h2]
    · simp at h
  · rcases l' with _ | ⟨x', _ | ⟨y', l'⟩⟩
    · simp at h
    · simp at h
    · simp only [List.take_succ_cons, List.take_zero, List.cons.injEq, and_true] at h2
      obtain ⟨rfl, rfl⟩ := h2
      simp only [firstStep, Option.map_some, Option.some.injEq, add_left_inj]
      have e1 : ∀ m : List ℚ, (x :: y :: m).getLast? = some ((x :: y :: m).getLastD 0) := by
        intro m
        rw [List.getLast?_eq_some_getLast (by simp), List.getLastD_eq_getLast?, List.getLast?_eq_some_getLast (by simp)]
        rfl
      rw [e1, e1, Option.some.injEq]

/-- The environments have the same settings other than the arrays. -/
def SameSettings (e₁ e₂ : Env) : Prop :=
  e₁.name = e₂.name ∧ e₁.bitrate = e₂.bitrate ∧ e₁.c = e₂.c ∧ e₁.freqdomain = e₂.freqdomain ∧ e₁.grad = e₂.grad ∧
    e₁.published.extras = e₂.published.extras

/-- C12, exactly: `==` compares the settings, the numbers of points, the first two points of the times and of the wavelengths, the last
time, and what would follow on the wavelengths and frequencies. Nothing else in the arrays matters. (Missing: what C12 asks for, that the
arrays are equal, is false.) -/
theorem C12_iff_partial (a₁ a₂ : Args) (e₁ e₂ : Env) (h₁ : Env.init a₁ = .ok e₁) (h₂ : Env.init a₂ = .ok e₂) :
    e₁.pyEq e₂ = true ↔ SameSettings e₁ e₂ ∧
      (e₁.t.length = e₂.t.length ∧ e₁.t.take 2 = e₂.t.take 2 ∧ e₁.t.getLast? = e₂.t.getLast?) ∧
      (e₁.wl.length = e₂.wl.length ∧ e₁.wl.take 2 = e₂.wl.take 2 ∧ following e₁.wl = following e₂.wl ∧
        following e₁.f = following e₂.f) := by
  obtain ⟨s1, s2, s3, s4, s5, s6, s7, s8, s9, s10, s11, s12, s13, s14, s15, s16, s17, s18⟩ := env_shape h₁
  obtain ⟨r1, r2, r3, r4, r5, r6, r7, r8, r9, r10, r11, r12, r13, r14, r15, r16, r17, r18⟩ := env_shape h₂
  have hft := @firstStep_take e₁.t e₂.t s1
  have hfw := @firstStep_take e₁.wl e₂.wl s2
  constructor
  · intro h
    simp only [Env.pyEq, decide_eq_true_eq] at h
    obtain ⟨q1, q2, q3, q4, q5, q6, q7, q8, q9, q10, q11, q12, q13, q14, q15, q16, q17, q18, q19, q20⟩ := h
    rw [public_eq, public_eq] at q20
    obtain ⟨k1, k2⟩ := hft.mp ⟨by rw [← s3, ← r3, q2], by rw [← s5, ← r5, q4], by rw [← s6, ← r6, q5]⟩
    obtain ⟨k3, k4⟩ := hfw.mp ⟨by rw [← s9, ← r9, q9], by rw [← s11, ← r11, q11], by rw [← s12, ← r12, q12]⟩
    refine ⟨⟨q1, q7, q17, q18, q19, q20⟩, ⟨k1, k2, (timeEnd_last s1 k1 k2).mp (by rw [← s4, ← r4, q3])⟩, k3, k4, ?_, ?_⟩
    · rw [← gridEnd_following, ← gridEnd_following, ← s10, ← r10, q10]
    · rw [← gridEnd_following, ← gridEnd_following, ← s15, ← r15, q14]
  · rintro ⟨⟨q1, q7, q17, q18, q19, q20⟩, ⟨k1, k2, k2'⟩, k3, k4, k5, k6⟩
    obtain ⟨t0, -, t2⟩ := hft.mpr ⟨k1, k2⟩
    obtain ⟨w0, -, w2⟩ := hfw.mpr ⟨k3, k4⟩
    have hdt : e₁.dt = e₂.dt := by rw [s6, r6, t2]
    have hsr : e₁.samplerate = e₂.samplerate := Except.ok.inj (s7.symm.trans (by rw [hdt, r7]))
    have hbl : e₁.bitlength = e₂.bitlength := Except.ok.inj (s8.symm.trans (by rw [q7, r8]))
    have g1 := (npDivArr_eq_ok.mp s13).2
    have g2 := (npDivArr_eq_ok.mp r13).2
    have hfne : e₁.f ≠ [] := by rw [g1]; simpa using s2
    have hflen : e₁.f.length = e₂.f.length := by rw [g1, g2, List.length_map, List.length_map, k3]
    have hf2 : e₁.f.take 2 = e₂.f.take 2 := by rw [g1, g2, ← List.map_take, ← List.map_take, k4, q17]
    obtain ⟨f0, -, f2⟩ := (firstStep_take hfne).mpr ⟨hflen, hf2⟩
    unfold Env.pyEq
    rw [decide_eq_true_eq, public_eq, public_eq]
    exact ⟨q1, by rw [s3, r3, t0], by rw [s4, r4]; exact (timeEnd_last s1 k1 k2).mpr k2', by rw [s5, r5, k1], hdt, hsr, q7, hbl,
      by rw [s9, r9, w0], by rw [s10, r10, gridEnd_following, gridEnd_following, k5], by rw [s11, r11, k3], by rw [s12, r12, w2],
      by rw [s14, r14, f0], by rw [s15, r15, gridEnd_following, gridEnd_following, k6], by rw [s16, r16, hflen],
      by rw [s17, r17, f2], q17, q18, q19, q20⟩

theorem short_last {l l' : List ℚ} (h3 : l.length ≤ 3) (h : l.length = l'.length) (h2 : l.take 2 = l'.take 2)
    (hl : l.getLast? = l'.getLast?) : l = l' := by
  rcases l with _ | ⟨x, _ | ⟨y, _ | ⟨z, _ | ⟨w, l⟩⟩⟩⟩ <;> rcases l' with _ | ⟨x', _ | ⟨y', _ | ⟨z', _ | ⟨w', l'⟩⟩⟩⟩ <;>
    simp only [List.length_cons, List.length_nil] at h h3 <;> first | omega | skip
  · rfl
  · simpa using h2
  · simpa using h2
  · simp only [List.take_succ_cons, List.take_zero, List.cons.injEq, and_true] at h2
    simp only [List.getLast?_cons_cons, List.getLast?_singleton, Option.some.injEq] at hl
    rw [h2.1, h2.2, hl]

theorem short_following {l l' : List ℚ} (h3 : l.length ≤ 3) (h : l.length = l'.length) (h2 : l.take 2 = l'.take 2)
    (hl : following l = following l') : l = l' := by
  rcases l with _ | ⟨x, _ | ⟨y, _ | ⟨z, _ | ⟨w, l⟩⟩⟩⟩ <;> rcases l' with _ | ⟨x', _ | ⟨y', _ | ⟨z', _ | ⟨w', l'⟩⟩⟩⟩ <;>
    simp only [List.length_cons, List.length_nil] at h h3 <;> first | omega | skip
  · rfl
  · simpa using h2
  · simpa using h2
  · simp only [List.take_succ_cons, List.take_zero, List.cons.injEq, and_true] at h2
    simp only [following, List.reverse_cons, List.reverse_nil, List.nil_append, List.cons_append, Option.some.injEq] at hl
    obtain ⟨rfl, rfl⟩ := h2
    rw [show z = z' by linarith]

/-- C12 holds for grids of at most three points, whatever their steps; four points are too many (`C12_violation`). -/
theorem C12_short_partial (a₁ a₂ : Args) (e₁ e₂ : Env) (h₁ : Env.init a₁ = .ok e₁) (h₂ : Env.init a₂ = .ok e₂)
    (ht : e₁.t.length ≤ 3) (hw : e₁.wl.length ≤ 3) : e₁.pyEq e₂ = true ↔ e₁.published = e₂.published := by
  constructor
  · intro h
    obtain ⟨⟨q1, q7, q17, q18, q19, q20⟩, ⟨k1, k2, k2'⟩, k3, k4, k5, k6⟩ := (C12_iff_partial a₁ a₂ e₁ e₂ h₁ h₂).mp h
    obtain ⟨s1, s2, s3, s4, s5, s6, s7, s8, s9, s10, s11, s12, s13, s14, s15, s16, s17, s18⟩ := env_shape h₁
    obtain ⟨r1, r2, r3, r4, r5, r6, r7, r8, r9, r10, r11, r12, r13, r14, r15, r16, r17, r18⟩ := env_shape h₂
    have hte : e₁.t = e₂.t := short_last ht k1 k2 k2'
    have hwe : e₁.wl = e₂.wl := short_following hw k3 k4 k5
    have hfe : e₁.f = e₂.f := by
      rw [hwe, q17] at s13
      exact Except.ok.inj (s13.symm.trans r13)
    have hdt : e₁.dt = e₂.dt := by rw [s6, r6, hte]
    have hsr : e₁.samplerate = e₂.samplerate := Except.ok.inj (s7.symm.trans (by rw [hdt, r7]))
    have hbl : e₁.bitlength = e₂.bitlength := Except.ok.inj (s8.symm.trans (by rw [q7, r8]))
    rw [hte] at s3 s4 s5 s6
    rw [hwe] at s9 s10 s11 s12
    rw [hfe] at s14 s15 s16 s17
    unfold Env.published at q20 ⊢
    simp only at q20
    rw [q1, hte, s3, s4, s5, hdt, hsr, q7, hbl, hwe, s9, s10, s11, s12, hfe, s14, s15, s16, s17, q17, q18, q19, q20, ← r3, ← r4, ← r5,
      ← r9, ← r10, ← r11, ← r12, ← r14, ← r15, ← r16, ← r17]
  · intro h
    have key : ∀ {α : Type} (g : Env → α), g e₁.published = g e₂.published := fun g => congrArg g h
    unfold Env.pyEq
    rw [decide_eq_true_eq, public_eq, public_eq]
    exact ⟨key Env.name, key Env.t0, key Env.t1, key Env.num_t, key Env.dt, key Env.samplerate, key Env.bitrate, key Env.bitlength,
      key Env.wl0, key Env.wl1, key Env.num_wl, key Env.dwl, key Env.f0, key Env.f1, key Env.num_f, key Env.df, key Env.c,
      key Env.freqdomain, key Env.grad, key Env.extras⟩

/-- Three points that are not equally spaced are told from three others; of five points the third and fourth are not looked at. -/
example : (∃ e₁ e₂, Env.make { t := some (.given (.vec [0, 1, 7])) } = .ok e₁ ∧ Env.make { t := some (.given (.vec [0, 1, 6])) } = .ok e₂ ∧
      e₁.pyEq e₂ = false) ∧
    ∃ e₁ e₂, Env.make { t := some (.given (.vec [0, 1, 3, 5, 9])) } = .ok e₁ ∧
      Env.make { t := some (.given (.vec [0, 1, 2, 8, 9])) } = .ok e₂ ∧ e₁.pyEq e₂ = true := by
  have hk : okAnd (Env.make { t := some (.given (.vec [0, 1, 7])) }) (fun e₁ => okAnd (Env.make { t := some (.given (.vec [0, 1, 6])) }) fun e₂ =>
      !e₁.pyEq e₂) = true := by decide +kernel
  have hk' : okAnd (Env.make { t := some (.given (.vec [0, 1, 3, 5, 9])) }) (fun e₁ =>
      okAnd (Env.make { t := some (.given (.vec [0, 1, 2, 8, 9])) }) fun e₂ => decide (e₁.t = [0, 1, 3, 5, 9] ∧ e₂.t = [0, 1, 2, 8, 9] ∧
        (e₁.name = e₂.name ∧ e₁.bitrate = e₂.bitrate ∧ e₁.c = e₂.c ∧ e₁.freqdomain = e₂.freqdomain ∧ e₁.grad = e₂.grad ∧
          e₁.published.extras = e₂.published.extras) ∧ e₁.wl = e₂.wl ∧ e₁.f = e₂.f)) = true := by
    decide +kernel
  obtain ⟨e₁, h₁, hk⟩ := okAnd_iff.mp hk
  obtain ⟨e₂, h₂, hk⟩ := okAnd_iff.mp hk
  obtain ⟨d₁, g₁, hk'⟩ := okAnd_iff.mp hk'
  obtain ⟨d₂, g₂, hk'⟩ := okAnd_iff.mp hk'
  obtain ⟨ht₁, ht₂, hs, hw, hf⟩ := of_decide_eq_true hk'
  refine ⟨⟨e₁, e₂, h₁, h₂, by simpa using hk⟩, d₁, d₂, g₁, g₂, (C12_iff_partial _ _ _ _ g₁ g₂).mpr ⟨hs, ?_, by rw [hw], by rw [hw],
    by rw [hw], by rw [hf]⟩⟩
  rw [ht₁, ht₂]
  decide

/-! ## C16 -/

/-- C16, exactly: an accepted network joins a port to itself if and only if one of its connections names two ports of one component whose
numbers differ by the number of its ports. (Missing: what C16 asks for, that there are none, is false.) -/
theorem C16_self_iff_partial (name : Option Str) (modules : Comps) (cs : List Conn) (c : Comp)
    (hm : ∀ p ∈ modules, Built p.2 ∧ OrderOK p.2) (hg : GoodConns cs) (h : mkNet name modules (cs.map Conn.text) = .ok c) (l : Comps)
    (hl : Layout modules cs l) :
    (∃ i, Declared l cs i i) ↔ ∃ a k m d, Conn.inner a k a m ∈ cs ∧ dictGet a modules = some d ∧
      (k = m + (freePorts d).length ∨ m = k + (freePorts d).length) := by
  have hnd : ∀ p ∈ l, p.2.portOrder.Nodup := layout_children hl (P := fun d => d.portOrder.Nodup)
    (fun _ _ h => h) fun p hp => (hm p hp).2.nodup_iff.mpr List.nodup_range
  have hch : ChildrenOK l := layout_children hl (P := fun d => Reciprocal d.n d.C) (fun _ _ h => h)
    fun p hp => built_reciprocal (hm p hp).1
  obtain ⟨l', hl', hb⟩ := mkNet_text_ok hg h
  obtain rfl := layout_unique hl hl'
  obtain ⟨-, hC, -⟩ := netBuffers_ok hb
  obtain ⟨ps, hps, -⟩ := setC_ok hC
  have hports := fun a k b m (hmem : Conn.inner a k b m ∈ cs) => forall₂_mem_left (mapE_parseInternal_text hg hps) hmem
  constructor
  · rintro ⟨i, a, k, b, m, hmem, hp⟩
    have hp : PortOf l a k i ∧ PortOf l b m i := by rcases hp with hp | hp <;> exact hp
    obtain ⟨⟨d, s, p, hbl, hat, rfl⟩, d', s', p', hbl', hat', he⟩ := hp
    have hlt : ∀ {e : Comp} {j : ℤ} {q : ℕ}, At (freePorts e) j q → q < e.n := by
      intro e j q hq
      have := hq.mem; unfold freePorts at this; simp only [List.mem_filter, decide_eq_true_eq] at this
      exact this.2.1
    obtain ⟨rfl, rfl, rfl, rfl⟩ := block_disjoint hbl hbl' (hlt hat) (hlt hat') he
    obtain ⟨d₀, hd₀, he₀⟩ := hl.2 _ hbl.mem
    simp only at hd₀ he₀
    obtain ⟨p₁, -, x, y, hxy, -⟩ := hports _ _ _ _ hmem
    have hne := (internalPorts_ok hxy).2.2
    have hlen : (freePorts d).length = (freePorts d₀).length := by rw [he₀]; rfl
    have hnod := freePorts_nodup (hnd _ hbl.mem)
    have hinj : ∀ u v : ℕ, (freePorts d)[u]? = some p → (freePorts d)[v]? = some p → u = v := by
      intro u v hu hv
      obtain ⟨h1, h1'⟩ := List.getElem?_eq_some_iff.mp hu
      obtain ⟨h2, h2'⟩ := List.getElem?_eq_some_iff.mp hv
      exact (hnod.getElem_inj_iff).mp (h1'.trans h2'.symm)
    refine ⟨a, k, m, d₀, hmem, hd₀, ?_⟩
    rw [← hlen]
    rcases hat with ⟨u, rfl, hu⟩ | ⟨u, rfl, hu0, hu⟩ <;> rcases hat' with ⟨v, rfl, hv⟩ | ⟨v, rfl, hv0, hv⟩ <;>
      obtain rfl := hinj _ _ hu hv
    · exact absurd ⟨rfl, rfl⟩ hne
    · left; ring
    · right; ring
    · exact absurd ⟨rfl, rfl⟩ hne
  · rintro ⟨a, k, m, d, hmem, hd, hkm⟩
    obtain ⟨p₁, -, x, y, hxy, -⟩ := hports _ _ _ _ hmem
    obtain ⟨h1, h2, -⟩ := internalPorts_ok hxy
    have h1 := (globalPort_iff hch).mp h1
    have h2 := (globalPort_iff hch).mp h2
    refine ⟨x, a, k, a, m, hmem, .inl ⟨h1, ?_⟩⟩
    obtain ⟨d₁, s, p, hbl, hat, rfl⟩ := h1
    obtain ⟨d₂, s', p', hbl', hat', rfl⟩ := h2
    obtain ⟨d', hd', he'⟩ := hl.2 _ hbl.mem
    obtain rfl := Option.some.inj (hd.symm.trans hd')
    have hbb : locate l a = some (s, d₁) := locate_iff.mpr hbl
    have hbb' : locate l a = some (s', d₂) := locate_iff.mpr hbl'
    have := hbb.symm.trans hbb'
    simp only [Option.some.injEq, Prod.mk.injEq] at this
    obtain ⟨rfl, rfl⟩ := this
    have hlen : (freePorts d₁).length = (freePorts d).length := by
      simp only at he'; rw [he']; rfl
    rw [← hlen] at hkm
    refine ⟨d₁, s, p, hbl, ?_, rfl⟩
    have hul : ∀ {u : ℕ} {q : ℕ}, (freePorts d₁)[u]? = some q → u < (freePorts d₁).length := fun hu => (List.getElem?_eq_some_iff.mp hu).1
    rcases hat with ⟨u, rfl, hu⟩ | ⟨u, rfl, hu0, hu⟩ <;> rcases hat' with ⟨v, rfl, hv⟩ | ⟨v, rfl, hv0, hv⟩ <;>
      have hu' := hul hu <;> have hv' := hul hv
    · omega
    · have : u = v := by omega
      subst this
      exact .inr ⟨u, rfl, hv0, hu⟩
    · have : u = v := by omega
      subst this
      exact .inl ⟨u, rfl, hu⟩
    · omega

/-- The connection of `C16_violation`: the ports 1 and -1 of a waveguide are the same, -1 + 2 = 1; 0 and 1 are different. -/
example : (∃ l i, Layout [(['w'], passive 2)] [.inner ['w'] 1 ['w'] (-1)] l ∧ Declared l [.inner ['w'] 1 ['w'] (-1)] i i) ∧
    ∀ l i, Layout [(['w'], passive 2)] [.inner ['w'] 0 ['w'] 1] l → ¬ Declared l [.inner ['w'] 0 ['w'] 1] i i := by
  have hm : ∀ p ∈ ([(['w'], passive 2)] : Comps), Built p.2 ∧ OrderOK p.2 := by
    intro p hp; rw [List.mem_singleton.mp hp]; exact ⟨passive_built 2 (by decide), passive_order 2⟩
  have hf : (freePorts (passive 2)).length = 2 := by decide +kernel
  constructor
  · have hk : okAnd (mkNet none [(['w'], passive 2)] (([.inner ['w'] 1 ['w'] (-1)] : List Conn).map Conn.text))
      (fun _ => true) = true := by decide +kernel
    obtain ⟨c, hc, -⟩ := okAnd_iff.mp hk
    have hg : GoodConns [.inner ['w'] 1 ['w'] (-1)] := goodConns_dec (by decide)
    obtain ⟨l, hl, -⟩ := mkNet_text_ok hg hc
    obtain ⟨i, hi⟩ := (C16_self_iff_partial none _ _ c hm hg hc l hl).mpr ⟨['w'], 1, -1, passive 2, by simp, by simp [dictGet],
      .inl (by rw [hf]; norm_num)⟩
    exact ⟨l, i, hl, hi⟩
  · intro l i hl hi
    have hk : okAnd (mkNet none [(['w'], passive 2)] (([.inner ['w'] 0 ['w'] 1] : List Conn).map Conn.text))
      (fun _ => true) = true := by decide +kernel
    obtain ⟨c, hc, -⟩ := okAnd_iff.mp hk
    obtain ⟨a, k, m, d, hmem, hd, h⟩ := (C16_self_iff_partial none _ _ c hm (goodConns_dec (by decide)) hc l hl).mp ⟨i, hi⟩
    simp only [List.mem_singleton, Conn.inner.injEq] at hmem
    obtain ⟨rfl, rfl, -, rfl⟩ := hmem
    simp only [dictGet, if_true, Option.some.injEq] at hd
    subst hd
    rw [hf] at h
    omega

end PT
