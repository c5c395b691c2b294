import Verif.Spec.Tolerance
import Verif.Spec.SensitiveTime
import Verif.Proof.Tuned
import Verif.Proof.Plant

/-! Two circuits of the same wiring. -/

namespace PT
open Spec Matrix

variable {W : Type} {δ : ℝ} {m : ℕ} {R : Part → Part → Prop}

/-- As `EntriesWithin`, for matrices of any size. -/
structure MatClose (δ : ℝ) (m : ℕ) (M M' : ℕ → ℕ → ℂ) : Prop where
  near : ∀ i j, ‖M' i j - M i j‖ ≤ δ
  row : ∀ i, ∃ J : Finset ℕ, J.card ≤ m ∧ ∀ j, M' i j ≠ M i j → j ∈ J
  col : ∀ j, ∃ I : Finset ℕ, I.card ≤ m ∧ ∀ i, M' i j ≠ M i j → i ∈ I

theorem MatClose.refl (hδ : 0 ≤ δ) (M : ℕ → ℕ → ℂ) : MatClose δ m M M :=
  ⟨fun _ _ => by rw [sub_self, norm_zero]; exact hδ, fun _ => ⟨∅, by simp, fun _ h => absurd rfl h⟩, fun _ => ⟨∅, by simp, fun _ h => absurd rfl h⟩⟩

theorem MatClose.cons (hδ : 0 ≤ δ) (n : ℕ) {A A' B B' M M' : ℕ → ℕ → ℂ} (hA : MatClose δ m A A') (hB : MatClose δ m B B')
    (hM : ∀ i j, M i j = if i < n then (if j < n then A i j else 0) else if j < n then 0 else B (i - n) (j - n))
    (hM' : ∀ i j, M' i j = if i < n then (if j < n then A' i j else 0) else if j < n then 0 else B' (i - n) (j - n)) :
    MatClose δ m M M' := by
  have h0 : ‖(0 : ℂ) - 0‖ ≤ δ := by simpa using hδ
  refine ⟨fun i j => ?_, fun i => ?_, fun j => ?_⟩
  · rw [hM, hM']
    split_ifs
    · exact hA.near i j
    · exact h0
    · exact h0
    · exact hB.near _ _
  · by_cases hi : i < n
    · obtain ⟨J, hJ, h⟩ := hA.row i
      refine ⟨J, hJ, fun j hne => ?_⟩
      rw [hM, hM', if_pos hi, if_pos hi] at hne
      by_cases hj : j < n
      · rw [if_pos hj, if_pos hj] at hne
        exact h j hne
      · rw [if_neg hj, if_neg hj] at hne
        exact absurd rfl hne
    · obtain ⟨J, hJ, h⟩ := hB.row (i - n)
      refine ⟨J.image (· + n), Finset.card_image_le.trans hJ, fun j hne => ?_⟩
      rw [hM, hM', if_neg hi, if_neg hi] at hne
      by_cases hj : j < n
      · rw [if_pos hj, if_pos hj] at hne
        exact absurd rfl hne
      · rw [if_neg hj, if_neg hj] at hne
        exact Finset.mem_image.2 ⟨j - n, h _ hne, by omega⟩
  · by_cases hj : j < n
    · obtain ⟨I, hI, h⟩ := hA.col j
      refine ⟨I, hI, fun i hne => ?_⟩
      rw [hM, hM'] at hne
      by_cases hi : i < n
      · rw [if_pos hi, if_pos hi, if_pos hj, if_pos hj] at hne
        exact h i hne
      · rw [if_neg hi, if_neg hi, if_pos hj, if_pos hj] at hne
        exact absurd rfl hne
    · obtain ⟨I, hI, h⟩ := hB.col (j - n)
      refine ⟨I.image (· + n), Finset.card_image_le.trans hI, fun i hne => ?_⟩
      rw [hM, hM'] at hne
      by_cases hi : i < n
      · rw [if_pos hi, if_pos hi, if_neg hj, if_neg hj] at hne
        exact absurd rfl hne
      · rw [if_neg hi, if_neg hi, if_neg hj, if_neg hj] at hne
        exact Finset.mem_image.2 ⟨i - n, h _ hne, by omega⟩

theorem MatClose.blocks {α : Type} (hδ : 0 ≤ δ) (n : α → ℕ) (A B A' B' : α → ℕ → ℕ → ℝ) : ∀ l : List α,
    (∀ a ∈ l, MatClose δ m (fun i j => ⟨A a i j, B a i j⟩) (fun i j => ⟨A' a i j, B' a i j⟩)) →
    MatClose δ m (fun i j => ⟨blockMat (l.map fun a => (n a, A a)) i j, blockMat (l.map fun a => (n a, B a)) i j⟩)
      (fun i j => ⟨blockMat (l.map fun a => (n a, A' a)) i j, blockMat (l.map fun a => (n a, B' a)) i j⟩)
  | [], _ => .refl hδ _
  | a :: l, h => by
    refine .cons hδ (n a) (h a (by simp)) (MatClose.blocks hδ n A B A' B' l fun b hb => h b (by simp [hb])) (fun i j => ?_) (fun i j => ?_)
    · simp only [List.map_cons, blockMat]
      split_ifs <;> rfl
    · simp only [List.map_cons, blockMat]
      split_ifs <;> rfl

theorem MatClose.fin {n : ℕ} {M M' : ℕ → ℕ → ℂ} (h : MatClose δ m M M') :
    EntriesWithin δ m (Matrix.of fun i j : Fin n => M i j) (Matrix.of fun i j : Fin n => M' i j) := by
  have hc : ∀ J : Finset ℕ, J.card ≤ m → (Finset.univ.filter fun j : Fin n => (j : ℕ) ∈ J).card ≤ m := fun J hJ =>
    (Finset.card_le_card_of_injOn (fun j : Fin n => (j : ℕ)) (fun j hj => by simpa using hj) fun j _ k _ e => Fin.ext e).trans hJ
  refine ⟨fun i j => h.near i j, fun i => ?_, fun j => ?_⟩
  · obtain ⟨J, hJ, h⟩ := h.row i
    exact ⟨_, hc J hJ, fun j hne => by simpa using h j hne⟩
  · obtain ⟨J, hJ, h⟩ := h.col j
    exact ⟨_, hc J hJ, fun i hne => by simpa using h i hne⟩

theorem Spec.Varied.made (h : Varied R d d') : MadeOf (fun p => ∃ p', R p p') d ∧ MadeOf (fun p' => ∃ p, R p p') d' := by
  induction h with
  | part p p' hR hn hn' => exact ⟨.part p ⟨p', hR⟩ hn, .part p' ⟨p, hR⟩ hn'⟩
  | named d d' x _ ih => exact ⟨.named d x ih.1, .named d' x ih.2⟩
  | net name modules cs d d' hm hg hu hc hk hk' ih =>
    refine ⟨.net name _ cs d ?_ hg hu hc hk, .net name _ cs d' ?_ hg hu hc hk'⟩
    · intro p hp
      simp only [List.mem_map] at hp
      obtain ⟨q, hq, rfl⟩ := hp
      exact (ih q hq).1
    · intro p hp
      simp only [List.mem_map] at hp
      obtain ⟨q, hq, rfl⟩ := hp
      exact (ih q hq).2

theorem blockVec_rel {α : Type} (n : α → ℕ) (D D' : α → ℕ → ℝ) {Q : ℝ → ℝ → Prop} (h0 : Q 0 0) : ∀ l : List α,
    (∀ a ∈ l, ∀ i, Q (D a i) (D' a i)) → ∀ i, Q (blockVec (l.map fun a => (n a, D a)) i) (blockVec (l.map fun a => (n a, D' a)) i)
  | [], _, _ => h0
  | a :: l, h, i => by
    simp only [List.map_cons, blockVec]
    split_ifs
    · exact h a (by simp) i
    · exact blockVec_rel n D D' h0 l (fun b hb => h b (by simp [hb])) _

theorem block_same {α : Type} (n : α → ℕ) (A B : α → ℕ → ℕ → ℝ) (D : α → ℕ → ℝ) : ∀ l : List α,
    (∀ a ∈ l, ∀ i j, A a i j ≠ 0 ∨ B a i j ≠ 0 → D a i = D a j) → ∀ i j,
    blockMat (l.map fun a => (n a, A a)) i j ≠ 0 ∨ blockMat (l.map fun a => (n a, B a)) i j ≠ 0 →
    blockVec (l.map fun a => (n a, D a)) i = blockVec (l.map fun a => (n a, D a)) j
  | [], _, _, _, _ => rfl
  | a :: l, h, i, j, hne => by
    simp only [List.map_cons, blockVec, blockMat] at hne ⊢
    by_cases hi : i < n a <;> by_cases hj : j < n a <;> simp only [hi, hj, if_true, if_false] at hne ⊢
    · exact h a (by simp) i j hne
    · simp at hne
    · simp at hne
    · exact block_same n A B D l (fun b hb => h b (by simp [hb])) _ _ hne

/-- Only scattering matrices and delays differ. -/
theorem Spec.Varied.alike (hδ : 0 ≤ δ) {wl : W → ℝ} (hR : ∀ p p', R p p' → Looks δ wl p p' ∧ p.n ≤ m) {d d' : Dev} (h : Varied R d d') :
    d'.comp = d.comp ∧
      (∀ (v : ℝ) (Q : ℝ → ℝ → Prop), Q 0 0 → (∀ p p', R p p' → Q (p.delay v) (p'.delay v)) → ∀ i, Q (d.delay v i) (d'.delay v i)) ∧
      (∀ w, MatClose δ m (fun i j => ⟨d.rS (wl w) i j, d.iS (wl w) i j⟩) (fun i j => ⟨d'.rS (wl w) i j, d'.iS (wl w) i j⟩)) ∧
      ∀ v w i j, d'.rS (wl w) i j ≠ 0 ∨ d'.iS (wl w) i j ≠ 0 → d.delay v i = d.delay v j := by
  induction h with
  | part p p' hpR hn hn' =>
    obtain ⟨⟨h1, h2, h4⟩, h5⟩ := hR p p' hpR
    refine ⟨h1, ?_, fun w => ?_, fun v w i j hne => ?_⟩
    · intro v Q h0 hQ i
      show Q (if i < p.n then p.delay v else 0) (if i < p'.n then p'.delay v else 0)
      rw [h2]
      split_ifs
      · exact hQ p p' hpR
      · exact h0
    · have hz : ∀ q : Part, ∀ i j, ¬ (i < q.n ∧ j < q.n) → (⟨q.dev.rS (wl w) i j, q.dev.iS (wl w) i j⟩ : ℂ) = 0 := by
        intro q i j h
        have e1 : q.dev.rS (wl w) i j = 0 := ofFin_zero _ _ _ (by omega)
        have e2 : q.dev.iS (wl w) i j = 0 := ofFin_zero _ _ _ (by omega)
        rw [e1, e2]
        rfl
      have hs : ∀ q : Part, ∀ i j (hi : i < q.n) (hj : j < q.n),
          (⟨q.dev.rS (wl w) i j, q.dev.iS (wl w) i j⟩ : ℂ) = scattering q (wl w) ⟨i, hi⟩ ⟨j, hj⟩ := by
        intro q i j hi hj
        have e1 : q.dev.rS (wl w) i j = (q.S (wl w)).re ⟨i, hi⟩ ⟨j, hj⟩ := dif_pos ⟨hi, hj⟩
        have e2 : q.dev.iS (wl w) i j = (q.S (wl w)).im ⟨i, hi⟩ ⟨j, hj⟩ := dif_pos ⟨hi, hj⟩
        rw [e1, e2]
        rfl
      have hout : ∀ i j, ¬ (i < p.n ∧ j < p.n) → (⟨p'.dev.rS (wl w) i j, p'.dev.iS (wl w) i j⟩ : ℂ) = ⟨p.dev.rS (wl w) i j, p.dev.iS (wl w) i j⟩ := by
        intro i j h
        rw [hz p i j h, hz p' i j (by rw [h2]; exact h)]
      refine ⟨fun i j => ?_, fun i => ⟨Finset.range p.n, by simpa using h5, fun j hne => ?_⟩,
        fun j => ⟨Finset.range p.n, by simpa using h5, fun i hne => ?_⟩⟩
      · by_cases h : i < p.n ∧ j < p.n
        · rw [hs p i j h.1 h.2, hs p' i j (h2 ▸ h.1) (h2 ▸ h.2)]
          exact h4 w i j h.1 h.2 _ _
        · rw [hout i j h, sub_self, norm_zero]
          exact hδ
      · by_contra hj
        exact hne (hout i j fun h => hj (by simpa using h.2))
      · by_contra hi
        exact hne (hout i j fun h => hi (by simpa using h.1))
    · have hb : i < p'.n ∧ j < p'.n := by
        by_contra hb
        have e1 : p'.dev.rS (wl w) i j = 0 := ofFin_zero _ _ _ (by omega)
        have e2 : p'.dev.iS (wl w) i j = 0 := ofFin_zero _ _ _ (by omega)
        rcases hne with h | h
        · exact h e1
        · exact h e2
      rw [h2] at hb
      show (if i < p.n then p.delay v else 0) = if j < p.n then p.delay v else 0
      rw [if_pos hb.1, if_pos hb.2]
  | named d d' x _ ih => exact ⟨by simp only [ih.1], ih.2.1, ih.2.2⟩
  | net name modules cs d d' hm hg hu hc hk hk' ih =>
    let names := usedNames ((cs.map Conn.text).map stripConn)
    let l : List (Str × Dev × Dev) := names.filterMap fun x => (dictGet x modules).map fun d => (x, d)
    have hl : ∀ p ∈ l, ∃ q ∈ modules, p.2 = q.2 := by
      intro p hp
      simp only [l, List.mem_filterMap, Option.map_eq_some_iff] at hp
      obtain ⟨x, -, e, he, rfl⟩ := hp
      exact ⟨_, dictGet_mem he, rfl⟩
    have hused : ∀ f : Dev × Dev → Dev, usedDevs (modules.map fun q => (q.1, f q.2)) names = l.map fun p => (p.1, f p.2) := by
      intro f
      simp only [usedDevs, l, List.map_filterMap]
      congr 1
      funext x
      rw [dictGet_map f]
      cases dictGet x modules <;> rfl
    have hmods : (modules.map fun q => (q.1, q.2.2)).map (fun p => (p.1, p.2.comp)) =
        (modules.map fun q => (q.1, q.2.1)).map (fun p => (p.1, p.2.comp)) := by
      rw [List.map_map, List.map_map]
      refine List.map_congr_left fun q hq => ?_
      simp only [Function.comp_apply, (ih q hq).1]
    unfold mkDev at hk hk'
    rw [hmods] at hk'
    cases hcn : mkNet name ((modules.map fun q => (q.1, q.2.1)).map fun p => (p.1, p.2.comp)) (cs.map Conn.text) with
    | error e => rw [hcn] at hk; cases hk
    | ok c =>
      rw [hcn] at hk hk'
      simp only [Except.map, Except.ok.injEq] at hk hk'
      have e1 : d = netDev c (l.map fun p => (p.1, p.2.1)) := hk.symm.trans (congrArg (netDev c) (hused Prod.fst))
      have e2 : d' = netDev c (l.map fun p => (p.1, p.2.2)) := hk'.symm.trans (congrArg (netDev c) (hused Prod.snd))
      have hall : ∀ p ∈ l, p.2.2.comp = p.2.1.comp ∧
          (∀ (v : ℝ) (Q : ℝ → ℝ → Prop), Q 0 0 → (∀ p p', R p p' → Q (p.delay v) (p'.delay v)) → ∀ i, Q (p.2.1.delay v i) (p.2.2.delay v i)) ∧
          (∀ w, MatClose δ m (fun i j => ⟨p.2.1.rS (wl w) i j, p.2.1.iS (wl w) i j⟩) (fun i j => ⟨p.2.2.rS (wl w) i j, p.2.2.iS (wl w) i j⟩)) ∧
          ∀ v w i j, p.2.2.rS (wl w) i j ≠ 0 ∨ p.2.2.iS (wl w) i j ≠ 0 → p.2.1.delay v i = p.2.1.delay v j := by
        intro p hp
        obtain ⟨q, hq, e⟩ := hl p hp
        rw [e]
        exact ih q hq
      have hsame : ∀ {β : Type} (f : Dev → β) (g : Dev → β), (∀ p ∈ l, g p.2.2 = f p.2.2) →
          ((l.map fun p => (p.1, p.2.2)).map fun p => (p.2.comp.n, g p.2)) = l.map fun p => (p.2.1.comp.n, f p.2.2) := by
        intro β f g hfg
        rw [List.map_map]
        refine List.map_congr_left fun p hp => ?_
        simp only [Function.comp_apply, (hall p hp).1, hfg p hp]
      rw [e1, e2]
      refine ⟨rfl, ?_, fun w => ?_, fun v w i j hne => ?_⟩
      · intro v Q h0 hQ i
        show Q (blockVec ((l.map fun p => (p.1, p.2.1)).map fun p => (p.2.comp.n, p.2.delay v)) i)
          (blockVec ((l.map fun p => (p.1, p.2.2)).map fun p => (p.2.comp.n, p.2.delay v)) i)
        rw [hsame (fun d => d.delay v) (fun d => d.delay v) fun _ _ => rfl, List.map_map]
        exact blockVec_rel (fun p : Str × Dev × Dev => p.2.1.comp.n) (fun p => p.2.1.delay v) (fun p => p.2.2.delay v) h0 l
          (fun p hp => (hall p hp).2.1 v Q h0 hQ) i
      · have key := MatClose.blocks (m := m) hδ (fun p : Str × Dev × Dev => p.2.1.comp.n) (fun p => p.2.1.rS (wl w)) (fun p => p.2.1.iS (wl w))
          (fun p => p.2.2.rS (wl w)) (fun p => p.2.2.iS (wl w)) l fun p hp => (hall p hp).2.2.1 w
        show MatClose δ m (fun i j => ⟨blockMat ((l.map fun p => (p.1, p.2.1)).map fun p => (p.2.comp.n, p.2.rS (wl w))) i j,
            blockMat ((l.map fun p => (p.1, p.2.1)).map fun p => (p.2.comp.n, p.2.iS (wl w))) i j⟩)
          (fun i j => ⟨blockMat ((l.map fun p => (p.1, p.2.2)).map fun p => (p.2.comp.n, p.2.rS (wl w))) i j,
            blockMat ((l.map fun p => (p.1, p.2.2)).map fun p => (p.2.comp.n, p.2.iS (wl w))) i j⟩)
        rw [hsame (fun d => d.rS (wl w)) (fun d => d.rS (wl w)) fun _ _ => rfl, hsame (fun d => d.iS (wl w)) (fun d => d.iS (wl w)) fun _ _ => rfl,
          List.map_map, List.map_map]
        exact key
      · have key := block_same (fun p : Str × Dev × Dev => p.2.1.comp.n) (fun p => p.2.2.rS (wl w)) (fun p => p.2.2.iS (wl w))
          (fun p => p.2.1.delay v) l (fun p hp => (hall p hp).2.2.2 v w) i j
        show blockVec ((l.map fun p => (p.1, p.2.1)).map fun p => (p.2.comp.n, p.2.delay v)) i =
          blockVec ((l.map fun p => (p.1, p.2.1)).map fun p => (p.2.comp.n, p.2.delay v)) j
        rw [List.map_map]
        refine key ?_
        have hne' : blockMat ((l.map fun p => (p.1, p.2.2)).map fun p => (p.2.comp.n, p.2.rS (wl w))) i j ≠ 0 ∨
            blockMat ((l.map fun p => (p.1, p.2.2)).map fun p => (p.2.comp.n, p.2.iS (wl w))) i j ≠ 0 := hne
        rw [hsame (fun d => d.rS (wl w)) (fun d => d.rS (wl w)) fun _ _ => rfl,
          hsame (fun d => d.iS (wl w)) (fun d => d.iS (wl w)) fun _ _ => rfl] at hne'
        exact hne'

/-- The plant of the other circuit is that of the circuit with other scattering matrices and delays. -/
theorem Spec.Varied.plant_looks (hδ : 0 ≤ δ) {wl : W → ℝ} (hR : ∀ p p', R p p' → Looks δ wl p p' ∧ p.n ≤ m) {d d' : Dev} (h : Varied R d d')
    (v : ℝ) : ∃ (S' : W → Matrix (Fin d.comp.n) (Fin d.comp.n) ℂ) (del : Fin d.comp.n → ℝ),
      ({ withS (d.plant v wl) S' with delay := del } : Plant W) = d'.plant v wl ∧
      EndsDark (d.plant v wl) S' ∧ KeepsDelays (d.plant v wl) S' ∧
      (∀ w, EntriesWithin δ m (cx ((d.plant v wl).rS w) ((d.plant v wl).iS w)) (S' w)) ∧
      ∀ Q : ℝ → ℝ → Prop, Q 0 0 → (∀ p p', R p p' → Q (p.delay v) (p'.delay v)) → ∀ i, Q ((d.plant v wl).delay i) (del i) := by
  obtain ⟨h1, h2, h3, h4⟩ := h.alike hδ hR
  obtain ⟨-, L, -, hL⟩ := madeOf_flat h.made.2
  obtain ⟨c, rS, iS, del⟩ := d
  obtain ⟨c', rS', iS', del'⟩ := d'
  dsimp only at h1 h2 h3 h4
  subst h1
  refine ⟨fun w => Matrix.of fun i j => ⟨rS' (wl w) i j, iS' (wl w) i j⟩, fun i => del' v i, rfl, fun w i hi j => plant_term hL v wl w i hi j,
    fun w i j hne => h4 v w i j ?_, fun w => (h3 w).fin, fun Q h0 hQ i => h2 v Q h0 hQ i⟩
  by_contra hc
  rw [not_or, not_not, not_not] at hc
  refine hne ?_
  show (⟨rS' (wl w) i j, iS' (wl w) i j⟩ : ℂ) = 0
  rw [hc.1, hc.2]
  rfl

/-- The plant of the other circuit is that of the circuit with other scattering matrices. -/
theorem Spec.Varied.plant (hδ : 0 ≤ δ) {wl : W → ℝ} {d d' : Dev} (h : Varied (fun p p' => Resembles δ wl p p' ∧ p.n ≤ m) d d') (v : ℝ) :
    ∃ S' : W → Matrix (Fin d.comp.n) (Fin d.comp.n) ℂ, withS (d.plant v wl) S' = d'.plant v wl ∧
      EndsDark (d.plant v wl) S' ∧ KeepsDelays (d.plant v wl) S' ∧
      ∀ w, EntriesWithin δ m (cx ((d.plant v wl).rS w) ((d.plant v wl).iS w)) (S' w) := by
  obtain ⟨S', del, e, h1, h2, h3, h4⟩ := h.plant_looks hδ (fun p p' hp => ⟨⟨hp.1.comp, hp.1.ports, hp.1.near⟩, hp.2⟩) v
  have hdel : del = (d.plant v wl).delay := funext fun i => (h4 Eq rfl (fun p p' hp => (hp.1.delay v).symm) i).symm
  subst hdel
  exact ⟨S', e, h1, h2, h3⟩

end PT
