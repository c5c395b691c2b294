import Verif.Proof.MeshTop
import Verif.Props.Circuits

/-! Proof support: terminated meshes. -/

namespace PT
open Spec

theorem Spec.MadeOf.mono {P Q : Part → Prop} (hPQ : ∀ p, P p → Q p) {d : Dev} (h : MadeOf P d) : MadeOf Q d := by
  induction h with
  | part p hp hn => exact .part p (hPQ p hp) hn
  | named d x _ ih => exact .named d x ih
  | net name modules cs d _ hg hu hc hk ih => exact .net name modules cs d ih hg hu hc hk

theorem oriented_named {d : Dev} {side : ℕ → Bool} (h : Oriented d side) (x : Option Str) :
    Oriented { d with comp := { d.comp with name := x } } side := by
  obtain ⟨f, r, h1, h2, h3⟩ := h
  exact ⟨f, r, ⟨h1.scatter, h1.connect⟩, h2, h3⟩

theorem scattering_source (wl : ℝ) (i j : Fin 1) : scattering .source wl i j = 0 := by
  unfold scattering cx
  rfl

theorem scattering_detector (wl : ℝ) (i j : Fin 1) : scattering .detector wl i j = 0 := by
  unfold scattering cx
  rfl

theorem zero_not_unitary {S : Matrix (Fin 1) (Fin 1) ℂ} (h : Unitary S) (h0 : ∀ i j, S i j = 0) : False := by
  have hS : S = 0 := by ext i j; exact h0 i j
  have hp := h (fun _ => 1)
  rw [hS, Matrix.zero_mulVec] at hp
  simp [power] at hp

theorem lossless_ne {p : Part} (h : LosslessPart p) : p ≠ .source ∧ p ≠ .detector := by
  constructor
  · rintro rfl
    exact zero_not_unitary (h 0) (scattering_source 0)
  · rintro rfl
    exact zero_not_unitary (h 0) (scattering_detector 0)

theorem count_marks (l : List Bool) (n : ℕ) (h : l.length = n) :
    (portsWith fun i : Fin n => l.getD i false).length = l.count true := by
  subst h
  have hl : l = (List.finRange l.length).map fun (i : Fin l.length) => l.getD i false := by
    apply List.ext_getElem
    · simp
    · intro i h1 h2
      simp [List.getD_eq_getElem?_getD, h1]
  conv_rhs => rw [hl]
  rw [portsWith, List.count_eq_countP, List.countP_map, List.countP_eq_length_filter]
  congr 1
  apply List.filter_congr
  intro i _
  simp

/-- A circuit of components which are no sources and no detectors has no marked ports. -/
theorem blank_marks {P : Part → Prop} (hne : ∀ p, P p → p ≠ .source ∧ p ≠ .detector) {d : Dev} (h : MadeOf P d) :
    d.comp.src.count true = 0 ∧ d.comp.det.count true = 0 := by
  obtain ⟨-, L, hP, hL⟩ := madeOf_flat h
  constructor
  · rw [hL.src, List.count_eq_zero, List.mem_flatMap]
    rintro ⟨p, hp, ht⟩
    obtain ⟨i, hi⟩ := List.mem_iff_getElem?.mp ht
    exact (hne p (hP p hp)).1 (part_src p i (by rw [List.getD_eq_getElem?_getD, hi]; rfl))
  · rw [hL.det, List.count_eq_zero, List.mem_flatMap]
    rintro ⟨p, hp, ht⟩
    obtain ⟨i, hi⟩ := List.mem_iff_getElem?.mp ht
    exact (hne p (hP p hp)).2 (part_det p i (by rw [List.getD_eq_getElem?_getD, hi]; rfl))

theorem terminated_of_free {c : Comp} (h : Built c) (ho : OrderOK c) (hf : (freePorts c).length = 0) :
    c.terminated = true := by
  have hrec := built_reciprocal h
  unfold Comp.terminated
  rw [Bool.not_eq_true', List.any_eq_false]
  intro i hi hfree
  have hmem : i ∈ c.free := by
    unfold Comp.free
    exact List.mem_filter.mpr ⟨ho.mem_iff.mpr hi, hfree⟩
  rw [free_eq hrec.2.1, List.length_eq_zero_iff.mp hf] at hmem
  cases hmem

/-- The names of the default terms. -/
def termNames (N : ℕ) : List Str := (List.range N).map (lbl ['s']) ++ (List.range N).map (lbl ['d'])

theorem meshTerms_names (N : ℕ) : (meshTerms N).map Prod.fst = termNames N := by
  simp [meshTerms, termNames, List.map_map, Function.comp_def]

theorem mem_termNames {N : ℕ} {x : Str} : x ∈ termNames N ↔ (∃ i < N, x = lbl ['s'] i) ∨ ∃ i < N, x = lbl ['d'] i := by
  simp only [termNames, List.mem_append, List.mem_map, List.mem_range, eq_comm]

theorem termNames_length (N : ℕ) : (termNames N).length = 2 * N := by simp [termNames]; omega

theorem head_lbl (c : Char) (i : ℕ) : (lbl [c] i).head? = some c := rfl

theorem termNames_nodup (N : ℕ) : (termNames N).Nodup := by
  rw [termNames, List.nodup_append']
  refine ⟨lbl_nodup _ _, lbl_nodup _ _, ?_⟩
  intro x h1 h2
  obtain ⟨i, -, rfl⟩ := List.mem_map.mp h1
  obtain ⟨j, -, h⟩ := List.mem_map.mp h2
  exact ne_of_head (by simp [head_lbl]) h

theorem termNames_get {N i : ℕ} {x : Str} (h : (termNames N)[i]? = some x) :
    (i < N ∧ x = lbl ['s'] i) ∨ (N ≤ i ∧ x = lbl ['d'] (i - N)) := by
  unfold termNames at h
  rw [List.getElem?_append] at h
  split at h
  · rename_i hi
    rw [List.getElem?_eq_getElem hi, List.getElem_map, List.getElem_range] at h
    simp only [List.length_map, List.length_range] at hi
    exact .inl ⟨hi, by simpa using h.symm⟩
  · rename_i hi
    simp only [List.length_map, List.length_range] at hi h
    have hlt : i - N < ((List.range N).map (lbl ['d'])).length := by
      by_contra hlt
      rw [List.getElem?_eq_none (by omega)] at h
      cases h
    rw [List.getElem?_eq_getElem hlt, List.getElem_map, List.getElem_range] at h
    exact .inr ⟨by omega, by simpa using h.symm⟩

theorem termLinks_count (nw : Str) (names : List Str) : (endpoints (termLinks nw names)).length = 2 * names.length := by
  unfold termLinks
  rw [endpoints_map, length_flatMap_const _ _ 2 (by simp [Conn.ends])]
  simp
  omega

/-- Sides and levels in a terminated mesh. -/
def termSide (N : ℕ) (nw x : Str) (j : ℕ) : Bool :=
  if x = nw then decide (j < N) else if x.head? = some 's' then false else true
def termLevel (nw x : Str) : ℕ := if x = nw then 1 else if x.head? = some 's' then 0 else 2

/-- A mesh with its sources and detectors. -/
noncomputable def termMods (nw : Str) (d : Dev) (N : ℕ) : List (Str × Dev) :=
  (nw, { d with comp := { d.comp with name := some nw } }) :: meshTerms N

theorem mem_termMods {nw : Str} {d : Dev} {N : ℕ} {q : Str × Dev} (h : q ∈ termMods nw d N) :
    (q = (nw, { d with comp := { d.comp with name := some nw } })) ∨
    (∃ i, q = (lbl ['s'] i, { Part.dev .source with comp := { source with name := some (lbl ['s'] i) } })) ∨
    ∃ i, q = (lbl ['d'] i, { Part.dev .detector with comp := { detector with name := some (lbl ['d'] i) } }) := by
  simp only [termMods, meshTerms, List.mem_cons, List.mem_append, List.mem_map] at h
  rcases h with h | ⟨i, -, h⟩ | ⟨i, -, h⟩
  · exact .inl h
  · exact .inr (.inl ⟨i, h.symm⟩)
  · exact .inr (.inr ⟨i, h.symm⟩)

/-- A device with `2 N` free ports, terminated by sources and detectors. -/
theorem term_any {P : Part → Prop} (hP1 : P .source) (hP2 : P .detector) {N : ℕ} (hN : 0 < N) {d : Dev} (hd : LayerOK P N d)
    (nw newName : Str) (hg : GoodName nw) (hs : nw.head? ≠ some 's') (hdd : nw.head? ≠ some 'd') :
    ∃ d', termDev newName nw d (meshTerms N) = .ok d' ∧ Made P (termMods nw d N) (termLinks nw (termNames N)) [] d' ∧
      d'.comp.terminated = true ∧ d'.comp.src.count true = d.comp.src.count true + N ∧
      d'.comp.det.count true = d.comp.det.count true + N := by
  have hnw : nw ∉ termNames N := by
    intro h
    rcases mem_termNames.mp h with ⟨i, -, rfl⟩ | ⟨i, -, rfl⟩
    · exact hs rfl
    · exact hdd rfl
  have hnd : (nw :: termNames N).Nodup := List.nodup_cons.mpr ⟨hnw, termNames_nodup N⟩
  have hkeys : (termMods nw d N).map Prod.fst = nw :: termNames N := by
    simp [termMods, meshTerms_names]
  have hlen : (termNames N).length = 2 * N := termNames_length N
  have hend : ∀ (i : ℕ) t, (termNames N)[i]? = some t →
      (t, ((0 : ℕ) : ℤ)) ∈ endpoints (termLinks nw (termNames N)) ∧
        (nw, (i : ℤ)) ∈ endpoints (termLinks nw (termNames N)) := by
    intro i t ht
    have := (mem_termLinks (nw := nw)).mpr ⟨i, t, ht, rfl⟩
    exact ⟨mem_endpoints.mpr ⟨_, _, _, _, this, .inl rfl⟩, mem_endpoints.mpr ⟨_, _, _, _, this, .inr rfl⟩⟩
  have hcover : ∀ x ∈ nw :: termNames N, ∀ i < (if x = nw then 2 * N else 1),
      (x, (i : ℤ)) ∈ endpoints (termLinks nw (termNames N)) := by
    intro x hx i hi
    rcases List.mem_cons.mp hx with rfl | hx
    · rw [if_pos rfl] at hi
      exact (hend i _ (List.getElem?_eq_getElem (by omega))).2
    · rw [if_neg (fun (h : x = nw) => hnw (h ▸ hx))] at hi
      have hi0 : i = 0 := by omega
      subst hi0
      obtain ⟨k, hk⟩ := List.mem_iff_getElem?.mp hx
      exact (hend k x hk).1
  have hplan : Plan (nw :: termNames N) (fun x => if x = nw then 2 * N else 1) (termLinks nw (termNames N)) [] := by
    refine ⟨hnd, ?_, fun x hx i hi => .inl (hcover x hx i hi), ?_⟩
    · intro x hx
      rcases List.mem_cons.mp hx with rfl | hx
      · exact hg
      · rcases mem_termNames.mp hx with ⟨i, -, rfl⟩ | ⟨i, -, rfl⟩
        · exact (lbl_attr (by decide) i).1
        · exact (lbl_attr (by decide) i).1
    · rw [termLinks_count, hlen, List.map_cons, List.sum_cons, if_pos rfl, sum_map_const _ _ 1, hlen]
      · simp; omega
      · intro x hx
        rw [if_neg (fun (h : x = nw) => hnw (h ▸ hx))]
  have hfm : ∀ x ∈ firstMentions (termLinks nw (termNames N)), x ∈ nw :: termNames N := by
    intro x hx
    rcases firstMentions_termLinks hx with rfl | h
    · exact List.mem_cons_self
    · exact List.mem_cons_of_mem _ h
  have hm : ∀ p ∈ termMods nw d N, MadeOf P p.2 := by
    intro p hp
    rcases mem_termMods hp with rfl | ⟨i, rfl⟩ | ⟨i, rfl⟩
    · exact .named d _ hd.made
    · exact .named (Part.dev .source) _ (.part .source hP1 (by decide))
    · exact .named (Part.dev .detector) _ (.part .detector hP2 (by decide))
  have hget : ∀ x ∈ nw :: termNames N, ∃ e, dictGet x (termMods nw d N) = some e := by
    intro x hx
    rw [← hkeys, List.mem_map] at hx
    obtain ⟨q, hq, rfl⟩ := hx
    exact ⟨q.2, dictGet_of_mem (by rw [hkeys]; exact hnd) hq⟩
  have hmade := open_made (P := P) (modules := termMods nw d N) (some newName)
    (conns := termConns nw ((meshTerms N).map Prod.fst)) hplan ?_ hm ?_ (termLinks_outs _ _) ?_ ?_
  · obtain ⟨d', hd', h⟩ := hmade
    refine ⟨d', hd', h, terminated_of_free h.made.ok.1 h.made.ok.2 (by rw [h.len]; rfl), ?_⟩
    obtain ⟨l, hl, hlf, hls, hld⟩ := h.marks
    have hlnd : l.Nodup := by
      have : (l.map Prod.fst).Nodup := by rw [hlf, firstMentions_eq]; exact nodup_dedupFirst _
      exact this.of_map
    have hmnd : (termMods nw d N).Nodup := by
      have : ((termMods nw d N).map Prod.fst).Nodup := by rw [hkeys]; exact hnd
      exact this.of_map
    have hperm : l.Perm (termMods nw d N) := by
      rw [List.perm_ext_iff_of_nodup hlnd hmnd]
      intro q
      constructor
      · intro hq
        exact dictGet_mem (hl q hq)
      · intro hq
        have hq1 : q.1 ∈ nw :: termNames N := by rw [← hkeys]; exact List.mem_map_of_mem hq
        have hfirst : q.1 ∈ firstMentions (termLinks nw (termNames N)) := by
          rw [firstMentions_eq, mem_dedupFirst, List.mem_flatMap]
          have h0 : (q.1, ((0 : ℕ) : ℤ)) ∈ endpoints (termLinks nw (termNames N)) :=
            hcover q.1 hq1 0 (by split <;> omega)
          obtain ⟨a, i, b, j, hab, he⟩ := mem_endpoints.mp h0
          refine ⟨_, hab, ?_⟩
          simp only [Prod.mk.injEq] at he
          simp only [Conn.names, List.mem_cons, List.not_mem_nil, or_false]
          rcases he with he | he
          · exact .inl he.1
          · exact .inr he.1
        rw [← hlf, List.mem_map] at hfirst
        obtain ⟨p, hp, hpq⟩ := hfirst
        have h1 := hl p hp
        have h2 := dictGet_of_mem (by rw [hkeys]; exact hnd) hq
        rw [hpq, h2] at h1
        simp only [Option.some.injEq] at h1
        have : p = q := Prod.ext hpq h1.symm
        rw [← this]; exact hp
    refine ⟨?_, ?_⟩
    · rw [hls, (hperm.flatMap_right _).count_eq]
      simp only [termMods, meshTerms, List.flatMap_cons, List.flatMap_append, List.flatMap_map, List.count_append]
      rw [List.count_flatMap, List.count_flatMap, sum_map_const _ _ 1, sum_map_const _ _ 0]
      · simp
      · intro _ _; rfl
      · intro _ _; rfl
    · rw [hld, (hperm.flatMap_right _).count_eq]
      simp only [termMods, meshTerms, List.flatMap_cons, List.flatMap_append, List.flatMap_map, List.count_append]
      rw [List.count_flatMap, List.count_flatMap, sum_map_const _ _ 0, sum_map_const _ _ 1]
      · simp
      · intro _ _; rfl
      · intro _ _; rfl
  · rw [meshTerms_names, termConns_text]
  · intro x hx
    obtain ⟨e, he⟩ := hget x hx
    refine ⟨e, he, ?_⟩
    rcases mem_termMods (dictGet_mem he) with h | ⟨i, h⟩ | ⟨i, h⟩
    · simp only [Prod.mk.injEq] at h
      obtain ⟨rfl, rfl⟩ := h
      rw [if_pos rfl]
      exact hd.len
    · simp only [Prod.mk.injEq] at h
      obtain ⟨rfl, rfl⟩ := h
      rw [if_neg (by rintro rfl; exact hs rfl)]
      have : (freePorts (Part.comp .source)).length = 1 := by rw [part_free]; rfl
      exact this
    · simp only [Prod.mk.injEq] at h
      obtain ⟨rfl, rfl⟩ := h
      rw [if_neg (by rintro rfl; exact hdd rfl)]
      have : (freePorts (Part.comp .detector)).length = 1 := by rw [part_free]; rfl
      exact this
  · intro h
    have := (hend 0 _ (List.getElem?_eq_getElem (by omega))).1
    rw [h] at this
    cases this
  · symm
    rw [List.filter_eq_nil_iff]
    intro e he
    obtain ⟨h1, i, hi, h2⟩ := mem_allPorts.mp he
    have := hcover e.1 (hfm _ h1) i hi
    rw [← h2] at this
    simpa using this

/-- A component with the property, a source or a detector. -/
def OrEnd (P : Part → Prop) (p : Part) : Prop := p = .source ∨ p = .detector ∨ P p

theorem term_made {P : Part → Prop} (hblank : ∀ p, P p → p ≠ .source ∧ p ≠ .detector) {N : ℕ} (hN : 0 < N) {d : Dev}
    (hd : LayerOK P N d)
    (ho : Oriented d fun j => decide (j < N)) (nw newName : Str) (hg : GoodName nw) (hs : nw.head? ≠ some 's')
    (hdd : nw.head? ≠ some 'd') :
    ∃ d', termDev newName nw d (meshTerms N) = .ok d' ∧ MadeOf (OrEnd P) d' ∧ d'.comp.terminated = true ∧
      (∃ front rank, FeedForward d' front rank ∧ ∀ i, d'.comp.src.getD i false = true → front i = false) ∧
      d'.comp.src.count true = N ∧ d'.comp.det.count true = N ∧
      Made (OrEnd P) (termMods nw d N) (termLinks nw (termNames N)) [] d' := by
  have hnw : nw ∉ termNames N := by
    intro h
    rcases mem_termNames.mp h with ⟨i, -, rfl⟩ | ⟨i, -, rfl⟩
    · exact hs rfl
    · exact hdd rfl
  have hd0 : LayerOK (OrEnd P) N d := ⟨hd.made.mono fun p hp => .inr (.inr hp), hd.len⟩
  obtain ⟨d', hd', h, ht, hs', hdet⟩ := term_any (.inl rfl) (.inr (.inl rfl)) hN hd0 nw newName hg hs hdd
  obtain ⟨m1, m2⟩ := blank_marks hblank hd.made
  rw [m1, Nat.zero_add] at hs'
  rw [m2, Nat.zero_add] at hdet
  have hside : ∀ x e, dictGet x (termMods nw d N) = some e → Oriented e (termSide N nw x) := by
    intro x e hx
    rcases mem_termMods (dictGet_mem hx) with he | ⟨i, he⟩ | ⟨i, he⟩
    · simp only [Prod.mk.injEq] at he
      obtain ⟨rfl, rfl⟩ := he
      unfold termSide
      simp only [if_pos]
      exact oriented_named ho _
    · simp only [Prod.mk.injEq] at he
      obtain ⟨rfl, rfl⟩ := he
      have h1 : lbl ['s'] i ≠ nw := by rintro rfl; exact hs rfl
      have : termSide N nw (lbl ['s'] i) = fun _ => false := by
        funext j
        rw [termSide, if_neg h1, if_pos (head_lbl 's' i)]
      rw [this]
      exact oriented_named (part_oriented .source _ (fun wl a b hab => absurd (scattering_source wl a b) hab)
        fun _ _ => rfl) _
    · simp only [Prod.mk.injEq] at he
      obtain ⟨rfl, rfl⟩ := he
      have h1 : lbl ['d'] i ≠ nw := by rintro rfl; exact hdd rfl
      have : termSide N nw (lbl ['d'] i) = fun _ => true := by
        funext j
        rw [termSide, if_neg h1, if_neg (by rw [head_lbl]; decide)]
      rw [this]
      refine oriented_named (part_oriented .detector _ (fun wl a b hab => absurd (scattering_detector wl a b) hab)
        fun k hk => ?_) _
      exact absurd (part_src _ k hk) (by simp)
  have hdir : Directed (termLinks nw (termNames N)) (termSide N nw) (termLevel nw) := by
    intro a i b j hab
    obtain ⟨k, t, ht, he⟩ := mem_termLinks.mp hab
    simp only [Conn.inner.injEq] at he
    obtain ⟨rfl, rfl, rfl, rfl⟩ := he
    have hne : a ≠ b := fun h => hnw (h ▸ List.mem_of_getElem? ht)
    rcases termNames_get ht with ⟨hk, rfl⟩ | ⟨hk, rfl⟩
    · refine dir_fwd (i := 0) (j := k) ?_ ?_ ?_
      · rw [termSide, if_neg hne, if_pos (head_lbl 's' k)]
      · rw [termSide, if_pos rfl, decide_eq_true hk]
      · rw [termLevel, termLevel, if_neg hne, if_pos rfl, if_pos (head_lbl 's' k)]
        omega
    · refine dir_bwd (i := 0) (j := k) ?_ ?_ ?_
      · rw [termSide, if_neg hne, if_neg (by rw [head_lbl]; decide)]
      · rw [termSide, if_pos rfl, decide_eq_false (by omega)]
      · rw [termLevel, termLevel, if_neg hne, if_pos rfl, if_neg (by rw [head_lbl]; decide)]
        omega
  obtain ⟨front, rank, hff, -, hsrc⟩ := h.oriented (termSide N nw) (termLevel nw) hside hdir (fun _ => true)
    (by intro j x i hj; simp at hj)
  exact ⟨d', hd', h.made, ht, ⟨front, rank, hff, hsrc⟩, hs', hdet, h⟩

end PT
