import Verif.Proof.MeshTerm
import Verif.Proof.Reck

/-! Proof support: the waves in terminated meshes. -/

namespace PT
open Spec Matrix

/-- The marked ports in order, as numbers. -/
def marked (l : List Bool) : List ℕ := (List.range l.length).filter fun i => l.getD i false

theorem marked_append (l r : List Bool) : marked (l ++ r) = marked l ++ (marked r).map (l.length + ·) := by
  unfold marked
  rw [List.length_append, List.range_add, List.filter_append, List.filter_map]
  congr 1
  · apply List.filter_congr
    intro i hi
    rw [List.mem_range] at hi
    rw [List.getD_eq_getElem?_getD, List.getD_eq_getElem?_getD, List.getElem?_append_left hi]
  · congr 1
    apply List.filter_congr
    intro i _
    simp only [Function.comp_apply]
    rw [List.getD_eq_getElem?_getD, List.getD_eq_getElem?_getD, List.getElem?_append_right (by omega),
      Nat.add_sub_cancel_left]

theorem portsWith_marked (l : List Bool) (n : ℕ) (h : l.length = n) :
    (portsWith fun i : Fin n => l.getD i false).map (fun (i : Fin n) => (i : ℕ)) = marked l := by
  subst h
  unfold portsWith marked
  rw [← List.map_coe_finRange_eq_range, List.filter_map]
  rfl

/-- The marked ports of devices side by side. -/
theorem marked_spread {α : Type} [Inhabited α] (m : Comp → List Bool) (V : Str → ℕ → α) : ∀ l : List (Str × Dev),
    (∀ q ∈ l, (m q.2.comp).length = q.2.comp.n) →
    (marked (l.flatMap fun q => m q.2.comp)).map (spread l V) = l.flatMap fun q => (marked (m q.2.comp)).map (V q.1)
  | [], _ => rfl
  | (y, e) :: l, h => by
    have hy : (m e.comp).length = e.comp.n := h (y, e) (by simp)
    rw [List.flatMap_cons, List.flatMap_cons, marked_append, List.map_append,
      ← marked_spread m V l fun q hq => h q (by simp [hq]), List.map_map]
    congr 1
    · apply List.map_congr_left
      intro i hi
      unfold marked at hi
      simp only [List.mem_filter, List.mem_range] at hi
      exact spread_cons_lt _ _ _ _ (by omega)
    · apply List.map_congr_left
      intro i _
      simp only [Function.comp_apply]
      rw [hy]
      exact spread_cons_ge _ _ _ _ _

theorem idxOf_of_map {α : Type} [DecidableEq α] (κ : α → ℕ) : ∀ (L : List α) (b : ℕ),
    L.map κ = (List.range L.length).map (b + ·) → ∀ i ∈ L, b + L.idxOf i = κ i
  | [], _, _, i, hi => by cases hi
  | x :: L, b, h, i, hi => by
    rw [List.map_cons, List.length_cons, List.range_succ_eq_map, List.map_cons, List.map_map] at h
    simp only [List.cons.injEq, Nat.add_zero] at h
    obtain ⟨h1, h2⟩ := h
    by_cases hx : x = i
    · subst hx
      rw [List.idxOf_cons_self, h1, Nat.add_zero]
    · rw [List.idxOf_cons_ne _ hx]
      have := idxOf_of_map κ L (b + 1) (by
        rw [h2]
        apply List.map_congr_left
        intro j _
        simp only [Function.comp_apply]
        omega) i (by
          rcases List.mem_cons.mp hi with h | h
          · exact absurd h.symm hx
          · exact h)
      rw [← this]
      omega

theorem dedupFirst_filter {α : Type} [DecidableEq α] (p : α → Bool) : ∀ l : List α,
    (dedupFirst l).filter p = dedupFirst (l.filter p)
  | [] => rfl
  | a :: l => by
    rw [dedupFirst, List.filter_cons, List.filter_cons, List.filter_filter]
    have hcomm : (dedupFirst l).filter (fun b => p b && decide (b ≠ a)) =
        (dedupFirst (l.filter p)).filter fun b => decide (b ≠ a) := by
      rw [← dedupFirst_filter p l, List.filter_filter]
      apply List.filter_congr
      intro b _
      rw [Bool.and_comm]
    split
    · rw [dedupFirst, hcomm]
    · rename_i hp
      rw [hcomm, List.filter_eq_self]
      intro b hb
      rw [mem_dedupFirst, List.mem_filter] at hb
      simp only [ne_eq, decide_eq_true_eq]
      rintro rfl
      exact hp hb.2

theorem dedupFirst_nodup {α : Type} [DecidableEq α] : ∀ l : List α, l.Nodup → dedupFirst l = l
  | [], _ => rfl
  | a :: l, h => by
    rw [List.nodup_cons] at h
    rw [dedupFirst, dedupFirst_nodup l h.2, List.filter_eq_self.mpr]
    intro b hb
    simp only [ne_eq, decide_eq_true_eq]
    rintro rfl
    exact h.1 hb

theorem term_order {nw : Str} {names : List Str} (p : Str → Bool) (hp : p nw = false) (hnd : names.Nodup) :
    (firstMentions (termLinks nw names)).filter p = names.filter p := by
  have key : ∀ (k : ℕ) (names : List Str), (((names.zipIdx k).map fun (q : Str × ℕ) =>
      Conn.inner q.1 0 nw (q.2 : ℤ)).flatMap Conn.names).filter p = names.filter p := by
    intro k names
    induction names generalizing k with
    | nil => rfl
    | cons x l ih =>
      rw [List.zipIdx_cons, List.map_cons, List.flatMap_cons, List.filter_append, ih]
      simp only [Conn.names, List.filter_cons, hp, List.filter_nil]
      split
      · rfl
      · rfl
  rw [firstMentions_eq, dedupFirst_filter, termLinks, key 0 names]
  exact dedupFirst_nodup _ (hnd.filter _)

theorem filter_heads (c : Char) (N : ℕ) (a b : Char) (hab : a ≠ b) (hc : c = a ∨ c = b) :
    ((List.range N).map (lbl [a]) ++ (List.range N).map (lbl [b])).filter (fun x => decide (x.head? = some c)) =
      (List.range N).map (lbl [c]) := by
  rw [List.filter_append, List.filter_map, List.filter_map]
  rcases hc with rfl | rfl
  · rw [List.filter_eq_self.mpr, List.filter_eq_nil_iff.mpr]
    · simp
    · intro i _
      simp [head_lbl, hab.symm]
    · intro i _
      simp [head_lbl]
  · rw [List.filter_eq_nil_iff.mpr, List.filter_eq_self.mpr]
    · simp
    · intro i _
      simp [head_lbl]
    · intro i _
      simp [head_lbl, hab]

/-- Collecting values from the children whose names begin with a letter. -/
theorem flatMap_head {α : Type} (c : Char) (g : Str × Dev → List α) (val : Str → α) : ∀ l : List (Str × Dev),
    (∀ q ∈ l, g q = if q.1.head? = some c then [val q.1] else []) →
    l.flatMap g = ((l.map Prod.fst).filter fun x => decide (x.head? = some c)).map val
  | [], _ => rfl
  | q :: l, h => by
    rw [List.flatMap_cons, h q (by simp), List.map_cons, List.filter_cons,
      flatMap_head c g val l fun q hq => h q (by simp [hq])]
    by_cases hq : q.1.head? = some c
    · simp [hq]
    · simp [hq]

theorem mark_at (f : Comp → List Bool) : ∀ (l : List (Str × Dev)) {i : ℕ} {x : Str} {e : Dev} {p : ℕ},
    (∀ q ∈ l, (f q.2.comp).length = q.2.comp.n) → devAt l i = some (x, e, p) →
    (l.flatMap fun q => f q.2.comp).getD i false = (f e.comp).getD p false
  | [], _, _, _, _, _, h => by cases h
  | (y, c) :: l, i, x, e, p, hlen, h => by
    have hy : (f c.comp).length = c.comp.n := hlen (y, c) (by simp)
    rw [List.flatMap_cons, List.getD_eq_getElem?_getD, List.getElem?_append]
    unfold devAt at h
    rw [hy]
    split
    · rename_i hi
      rw [if_pos hi] at h
      simp only [Option.some.injEq, Prod.mk.injEq] at h
      obtain ⟨rfl, rfl, rfl⟩ := h
      rw [List.getD_eq_getElem?_getD]
    · rename_i hi
      rw [if_neg hi] at h
      rw [← mark_at f l (fun q hq => hlen q (by simp [hq])) h, List.getD_eq_getElem?_getD]

section
variable {R : Type} [CommRing R]

/-- Waves emitted, entering and leaving in a terminated mesh, by component name. -/
noncomputable def termE (s : ℕ → R) (x : Str) (_ : ℕ) : R := if x.head? = some 's' then s (numOf 1 x) else 0
noncomputable def termA (nw : Str) (a : ℕ → R) (y : ℕ → R) (x : Str) (i : ℕ) : R :=
  if x = nw then a i else if x.head? = some 's' then 0 else y (numOf 1 x)
noncomputable def termB (nw : Str) (b : ℕ → R) (s : ℕ → R) (x : Str) (i : ℕ) : R :=
  if x = nw then b i else if x.head? = some 's' then s (numOf 1 x) else 0

theorem one_waves (p : Part) (hn : p.n = 1) (u : Look R) (h0 : ∀ i j, scattering p u.wl i j = 0) (e a b : ℕ → R) (hb : b 0 = e 0) :
    Waves p.dev u e a b a b := by
  refine part_waves p u e a b a b ?_ fun _ _ => ⟨rfl, rfl⟩
  intro i hi
  have : i = 0 := by omega
  subst this
  rw [hb, Finset.sum_eq_zero, zero_add]
  intro j hj
  rw [Finset.mem_range] at hj
  have h1 := entry_scattering p u.wl ⟨0, hi⟩ ⟨j, hj⟩
  simp only at h1
  rw [Dev.gain, h1, h0, u.zero, zero_mul]

theorem numOf_one (c : Char) (i : ℕ) : numOf 1 (lbl [c] i) = i := numOf_lbl [c] i

/-- The waves at connected ports, as an equation of matrices. -/
theorem mesh_linked {d' : Dev} (hclean : Clean d'.comp) (ht : d'.comp.terminated = true) (v : ℝ) {W : Type} (wl : W → ℝ)
    {a b : Fin d'.comp.n → ℂ} (hl : ∀ i j : Fin d'.comp.n, d'.comp.C i j ≠ 0 → a i = b j) :
    a = (cx (d'.plant v wl).C 0).mulVec b := by
  obtain ⟨σ, -, hσ⟩ := plant_paired hclean ht v wl
  funext i
  rw [Matrix.mulVec, dotProduct, Finset.sum_eq_single (σ i)]
  · have h1 : (d'.plant v wl).C i (σ i) = 1 := by rw [hσ, if_pos rfl]
    have h2 : cx (d'.plant v wl).C 0 i (σ i) = 1 := by
      apply Complex.ext
      · exact h1
      · rfl
    rw [h2, one_mul]
    refine hl i (σ i) ?_
    intro h0
    have : ((d'.comp.C i (σ i) : ℚ) : ℝ) = 1 := h1
    rw [h0] at this
    norm_num at this
  · intro j _ hj
    have h2 : cx (d'.plant v wl).C 0 i j = 0 := by
      apply Complex.ext
      · show (d'.plant v wl).C i j = 0
        rw [hσ, if_neg hj]
      · rfl
    rw [h2, zero_mul]
  · simp

/-- The waves in a terminated mesh: they solve the equations of the circuit, and what the detectors receive. -/
theorem term_waves {P : Part → Prop} (hblank : ∀ p, P p → p ≠ .source ∧ p ≠ .detector) {N : ℕ} {d d' : Dev} (hmd : MadeOf P d) {nw : Str} (hs : nw.head? ≠ some 's')
    (hdd : nw.head? ≠ some 'd')
    (h : Made (OrEnd P) (termMods nw d N) (termLinks nw (termNames N)) [] d') (ht : d'.comp.terminated = true)
    {u : Look R} {s y : ℕ → R} (hc : Carries d u (inSide N s) (outSide N y)) (v : ℝ) {W : Type} (wl : W → ℝ) :
    ∃ a b : Fin d'.comp.n → R, (∀ i j : Fin d'.comp.n, d'.comp.C i j ≠ 0 → a i = b j) ∧
      (∀ i : Fin d'.comp.n, b i = ∑ j : Fin d'.comp.n, d'.gain u i j * a j +
        if (d'.plant v wl).src i then s ((portsWith (d'.plant v wl).src).idxOf i) else 0) ∧
      (portsWith (d'.plant v wl).det).map a = (List.range N).map y := by
  obtain ⟨a₀, b₀, hab⟩ := hc
  obtain ⟨l, hl, hlf, hn, hsrc, hdet, hwv⟩ := h.waves
  have hE : termE s nw = fun _ => 0 := by funext i; rw [termE, if_neg hs]
  have hnw : ∀ c i, c = 's' ∨ c = 'd' → lbl [c] i ≠ nw := by
    rintro c i (rfl | rfl) rfl
    · exact hs rfl
    · exact hdd rfl
  have hlink : Linked (termLinks nw (termNames N))
      (fun x i => if x = nw then inSide N s i else if x.head? = some 's' then 0 else y (numOf 1 x))
      (fun x i => if x = nw then outSide N y i else if x.head? = some 's' then s (numOf 1 x) else 0) := by
    intro p i q j hpq
    obtain ⟨k, t, htt, he⟩ := mem_termLinks.mp hpq
    simp only [Conn.inner.injEq] at he
    obtain ⟨rfl, rfl, rfl, rfl⟩ := he
    refine ⟨0, k, rfl, rfl, ?_⟩
    rcases termNames_get htt with ⟨hk, rfl⟩ | ⟨hk, rfl⟩
    · simp only [if_neg (hnw 's' k (.inl rfl)), if_pos (head_lbl 's' k), if_pos, inSide, outSide, if_pos hk, numOf_one]
      exact ⟨trivial, trivial⟩
    · have h1 : (lbl ['d'] (k - N)).head? ≠ some 's' := by rw [head_lbl]; decide
      have h2 : ¬ k < N := by omega
      simp only [if_neg (hnw 'd' (k - N) (.inr rfl)), if_neg h1, if_pos, inSide, outSide, if_neg h2, numOf_one]
      exact ⟨trivial, trivial⟩
  have hW := hwv R u (termE s) (termA nw a₀ y) (termB nw b₀ s) _ _ ?_ hlink (fun _ => 0) (fun _ => 0)
    (by intro j x i hj; simp at hj)
  · have hok := h.made.ok
    obtain ⟨m1, m2, -⟩ := built_marks hok.1
    have hmarks : ∀ q ∈ l, q.2.comp.src.length = q.2.comp.n ∧ q.2.comp.det.length = q.2.comp.n := by
      intro q hq
      have hb : Built q.2.comp := by
        rcases mem_termMods (dictGet_mem (hl q hq)) with he | ⟨i, he⟩ | ⟨i, he⟩
        · rw [(Prod.ext_iff.mp he).2]; exact (MadeOf.named d _ hmd).ok.1
        · rw [(Prod.ext_iff.mp he).2]
          exact (MadeOf.named (P := OrEnd P) (Part.dev .source) _ (.part .source (.inl rfl) (by decide))).ok.1
        · rw [(Prod.ext_iff.mp he).2]
          exact (MadeOf.named (P := OrEnd P) (Part.dev .detector) _ (.part .detector (.inr (.inl rfl)) (by decide))).ok.1
      obtain ⟨e1, e2, -⟩ := built_marks hb
      exact ⟨e1, e2⟩
    obtain ⟨c1, c2⟩ := blank_marks hblank hmd
    have hnone : ∀ l : List Bool, l.count true = 0 → marked l = [] := by
      intro l hl
      unfold marked
      rw [List.filter_eq_nil_iff]
      intro i hi htrue
      rw [List.count_eq_zero] at hl
      apply hl
      rw [List.mem_range] at hi
      rw [List.getD_eq_getElem?_getD, List.getElem?_eq_getElem hi] at htrue
      simp only [Option.getD_some] at htrue
      rw [← htrue]
      exact List.getElem_mem hi
    have hsort : ∀ (c : Char), c = 's' ∨ c = 'd' →
        (l.map Prod.fst).filter (fun x => decide (x.head? = some c)) = (List.range N).map (lbl [c]) := by
      intro c hc
      rw [hlf, term_order _ _ (termNames_nodup N)]
      · exact filter_heads c N 's' 'd' (by decide) hc
      · rcases hc with rfl | rfl
        · simpa using hs
        · simpa using hdd
    have hkind : ∀ q ∈ l, (q.1 = nw ∧ marked q.2.comp.src = [] ∧ marked q.2.comp.det = []) ∨
        (∃ i, q.1 = lbl ['s'] i ∧ q.2.comp.src = [true] ∧ q.2.comp.det = [false]) ∨
        ∃ i, q.1 = lbl ['d'] i ∧ q.2.comp.src = [false] ∧ q.2.comp.det = [true] := by
      intro q hq
      rcases mem_termMods (dictGet_mem (hl q hq)) with he | ⟨i, he⟩ | ⟨i, he⟩
      · obtain ⟨e1, e2⟩ := Prod.ext_iff.mp he
        refine .inl ⟨e1, ?_, ?_⟩
        · rw [e2]; exact hnone _ c1
        · rw [e2]; exact hnone _ c2
      · obtain ⟨e1, e2⟩ := Prod.ext_iff.mp he
        exact .inr (.inl ⟨i, e1, by rw [e2]; rfl, by rw [e2]; rfl⟩)
      · obtain ⟨e1, e2⟩ := Prod.ext_iff.mp he
        exact .inr (.inr ⟨i, e1, by rw [e2]; rfl, by rw [e2]; rfl⟩)
    have hS : (marked d'.comp.src).map (spread l fun x _ => numOf 1 x) = List.range N := by
      rw [hsrc, marked_spread (fun c => c.src) _ l fun q hq => (hmarks q hq).1,
        flatMap_head 's' _ (numOf 1) l, hsort 's' (.inl rfl), List.map_map]
      · conv_rhs => rw [← List.map_id (List.range N)]
        apply List.map_congr_left
        intro i _
        exact numOf_one 's' i
      · intro q hq
        rcases hkind q hq with ⟨e, e1, -⟩ | ⟨i, e, e1, -⟩ | ⟨i, e, e1, -⟩
        · rw [e, if_neg hs, e1]; rfl
        · rw [e, if_pos (head_lbl 's' i), e1]; rfl
        · rw [e, if_neg (by rw [head_lbl]; decide), e1]; rfl
    have hDt : (marked d'.comp.det).map (spread l (termA nw a₀ y)) = (List.range N).map y := by
      rw [hdet, marked_spread (fun c => c.det) _ l fun q hq => (hmarks q hq).2,
        flatMap_head 'd' _ (fun x => y (numOf 1 x)) l, hsort 'd' (.inr rfl), List.map_map]
      · apply List.map_congr_left
        intro i _
        simp only [Function.comp_apply, numOf_one]
      · intro q hq
        rcases hkind q hq with ⟨e, -, e1⟩ | ⟨i, e, -, e1⟩ | ⟨i, e, -, e1⟩
        · rw [e, if_neg hdd, e1]; rfl
        · rw [e, if_neg (by rw [head_lbl]; decide), e1]; rfl
        · rw [e, if_pos (head_lbl 'd' i), e1]
          show [termA nw a₀ y (lbl ['d'] i) 0] = _
          rw [termA, if_neg (hnw 'd' i (.inr rfl)), if_neg (by rw [head_lbl]; decide)]
    have hpm := portsWith_marked d'.comp.src d'.comp.n m1
    have hpd := portsWith_marked d'.comp.det d'.comp.n m2
    refine ⟨fun i => spread l (termA nw a₀ y) i, fun i => spread l (termB nw b₀ s) i, fun i j hij => hW.link i j hij, ?_, ?_⟩
    · intro i
      show spread l (termB nw b₀ s) i = _
      rw [hW.out i i.2, Finset.sum_range]
      congr 1
      obtain ⟨x, e, p, hat⟩ := devAt_lt l (i := (i : ℕ)) (by rw [← hn]; exact i.2)
      obtain ⟨hmem, hp⟩ := devAt_mem l hat
      have hmk := mark_at (fun c => c.src) l (fun q hq => (hmarks q hq).1) hat
      rw [← hsrc] at hmk
      rw [spread_at hat]
      have hsi : (d'.plant v wl).src i = e.comp.src.getD p false := hmk
      rw [hsi]
      rcases hkind _ hmem with ⟨e0, e1, -⟩ | ⟨k, e0, e1, -⟩ | ⟨k, e0, e1, -⟩
      · have : e.comp.src.getD p false = false := by
          by_contra hne
          rw [Bool.not_eq_false] at hne
          have : p ∈ marked e.comp.src := by
            unfold marked
            rw [List.mem_filter, List.mem_range]
            refine ⟨?_, hne⟩
            rw [(hmarks _ hmem).1]; exact hp
          simp only at e1
          rw [e1] at this
          cases this
        simp only at e0
        rw [this, e0, hE]
        rfl
      · simp only at e0 e1
        have hp0 : p = 0 := by
          have := (hmarks _ hmem).1
          simp only at this
          rw [e1] at this
          simp only [List.length_cons, List.length_nil] at this
          omega
        subst hp0
        rw [e1]
        show termE s x 0 = s _
        have hi : i ∈ portsWith (d'.plant v wl).src := by
          unfold portsWith
          rw [List.mem_filter]
          exact ⟨List.mem_finRange i, by rw [hsi, e1]; rfl⟩
        have hidx := idxOf_of_map (fun i : Fin d'.comp.n => spread l (fun x _ => numOf 1 x) (i : ℕ))
          (portsWith (d'.plant v wl).src) 0 (by
            have e2 : (portsWith (d'.plant v wl).src).map
                (fun i : Fin d'.comp.n => spread l (fun x _ => numOf 1 x) (i : ℕ)) = List.range N := by
              rw [← hS, ← hpm, List.map_map]
              rfl
            have e3 : (portsWith (d'.plant v wl).src).length = N := by
              have := congrArg List.length e2
              simpa using this
            rw [e2, e3]
            simp) i hi
        rw [Nat.zero_add, spread_at hat] at hidx
        rw [hidx, e0, termE, if_pos (head_lbl 's' k)]
      · simp only at e0 e1
        have : e.comp.src.getD p false = false := by
          rw [e1]
          rcases p with _ | p <;> rfl
        rw [this, e0, termE, if_neg (by rw [head_lbl]; decide)]
        rfl
    · rw [← hDt, ← hpd, List.map_map]
      rfl
  · intro x e hx
    rcases mem_termMods (dictGet_mem hx) with he | ⟨i, he⟩ | ⟨i, he⟩
    · simp only [Prod.mk.injEq] at he
      obtain ⟨e1, e2⟩ := he
      rw [e1, e2, hE]
      have a1 : termA nw a₀ y nw = a₀ := by funext i; rw [termA, if_pos rfl]
      have a2 : termB nw b₀ s nw = b₀ := by funext i; rw [termB, if_pos rfl]
      simp only [if_true]
      rw [a1, a2]
      exact waves_named hab (some nw)
    · simp only [Prod.mk.injEq] at he
      obtain ⟨e1, e2⟩ := he
      have h1 : (lbl ['s'] i).head? = some 's' := head_lbl 's' i
      have h2 : lbl ['s'] i ≠ nw := hnw 's' i (.inl rfl)
      have a1 : termA nw a₀ y (lbl ['s'] i) = fun _ => 0 := by funext k; rw [termA, if_neg h2, if_pos h1]
      have a2 : termB nw b₀ s (lbl ['s'] i) = fun _ => s (numOf 1 (lbl ['s'] i)) := by
        funext k; rw [termB, if_neg h2, if_pos h1]
      have a3 : termE s (lbl ['s'] i) = fun _ => s (numOf 1 (lbl ['s'] i)) := by funext k; rw [termE, if_pos h1]
      rw [e1, e2, a1, a2, a3]
      simp only [if_neg h2, if_pos h1]
      exact waves_named (one_waves .source rfl _ (scattering_source _) _ _ _ rfl) _
    · simp only [Prod.mk.injEq] at he
      obtain ⟨e1, e2⟩ := he
      have h1 : (lbl ['d'] i).head? ≠ some 's' := by rw [head_lbl]; decide
      have h2 : lbl ['d'] i ≠ nw := hnw 'd' i (.inr rfl)
      have a1 : termA nw a₀ y (lbl ['d'] i) = fun _ => y (numOf 1 (lbl ['d'] i)) := by
        funext k; rw [termA, if_neg h2, if_neg h1]
      have a2 : termB nw b₀ s (lbl ['d'] i) = fun _ => 0 := by
        funext k; rw [termB, if_neg h2, if_neg h1]
      have a3 : termE s (lbl ['d'] i) = fun _ => 0 := by funext k; rw [termE, if_neg h1]
      rw [e1, e2, a1, a2, a3]
      simp only [if_neg h2, if_neg h1]
      exact waves_named (one_waves .detector rfl _ (scattering_detector _) _ _ _ rfl) _

/-- Steady waves in a terminated mesh. -/
theorem term_steady {P : Part → Prop} (hblank : ∀ p, P p → p ≠ .source ∧ p ≠ .detector) {N : ℕ} {d d' : Dev}
    (hmd : MadeOf P d) {nw : Str} (hs : nw.head? ≠ some 's') (hdd : nw.head? ≠ some 'd')
    (h : Made (OrEnd P) (termMods nw d N) (termLinks nw (termNames N)) [] d') (ht : d'.comp.terminated = true)
    {wl₀ v₀ : ℝ} {s y : ℕ → ℂ} (hc : Carries d (.steady wl₀ v₀) (inSide N s) (outSide N y))
    (v : ℝ) {W : Type} (wl : W → ℝ) (w : W) (hw : wl w = wl₀) :
    ∃ a b, SolvesStatic (cx (d'.plant v wl).C 0) (cx ((d'.plant v wl).rS w) ((d'.plant v wl).iS w))
        (emitted (d'.plant v wl).src s) a b ∧
      (portsWith (d'.plant v wl).det).map a = (List.range N).map y := by
  subst hw
  obtain ⟨a, b, h1, h2, h3⟩ := term_waves hblank hmd hs hdd h ht hc v wl
  refine ⟨a, b, ⟨mesh_linked h.made.clean ht v wl h1, ?_⟩, h3⟩
  funext i
  rw [h2 i]
  rfl

end

end PT
