import Verif.Proof.BlockSolve

/-!
# The simulation loop as a recursion with delays
-/

namespace PT

open Matrix Spec

variable {W B : Type} {m : ℕ}

/-- The zero field. -/
def zeroF (m : ℕ) (W B : Type) : Fields m W B := ⟨fun _ => 0, fun _ => 0⟩

/-- The complex value at a node. -/
def Fields.val (x : Fields m W B) (w : W) (b : B) (k : Fin m) : ℂ := ⟨x.re w k b, x.im w k b⟩

theorem emptyBuffer_eq (len m : ℕ) : emptyBuffer len m W B = List.replicate len (zeroF m W B) := rfl

theorem simulate_length (r : Reduced W) (cs : List (Actor W B)) (src : ℕ → Fields r.m W B)
    (ts : List ℝ) (i : ℕ) (buf : List (Fields r.m W B)) :
    (simulate r cs src ts i buf).length = ts.length := by
  induction ts generalizing i buf with
  | nil => rfl
  | cons t ts ih => simp [simulate, ih]

theorem pushBuffer_take {α : Type} (x z : α) (past : List α) (len : ℕ) (h : 0 < len) :
    pushBuffer x ((past ++ List.replicate len z).take len) =
      ((x :: past) ++ List.replicate len z).take len := by
  obtain ⟨k, rfl⟩ := Nat.exists_eq_succ_of_ne_zero h.ne'
  unfold pushBuffer
  rw [List.cons_append, List.take_succ_cons, List.dropLast_eq_take, List.length_take, List.take_take]
  congr 2
  rw [List.length_append, List.length_replicate]
  omega

theorem simulate_get (r : Reduced W) (cs : List (Actor W B)) (src : ℕ → Fields r.m W B)
    (len : ℕ) (hlen : 0 < len) (ts : List ℝ) (i : ℕ) (past : List (Fields r.m W B)) (j : ℕ)
    (hj : j < ts.length) (xs : List (Fields r.m W B))
    (hxs : xs = simulate r cs src ts i ((past ++ List.replicate len (zeroF r.m W B)).take len)) :
    xs[j]? = some (stepField r cs ts[j] (src (i + j))
      ((((xs.take j).reverse ++ past) ++ List.replicate len (zeroF r.m W B)).take len)) := by
  induction ts generalizing i past j xs with
  | nil => simp at hj
  | cons t ts ih =>
    simp only [simulate] at hxs
    rw [pushBuffer_take _ _ _ _ hlen] at hxs
    rw [hxs]
    set x := stepField r cs t (src i) ((past ++ List.replicate len (zeroF r.m W B)).take len) with hx
    cases j with
    | zero => simp [hx]
    | succ j =>
      have := ih (i + 1) (x :: past) j (by simpa using hj) _ rfl
      rw [List.getElem?_cons_succ, this]
      simp only [List.getElem_cons_succ, List.take_succ_cons, List.reverse_cons, List.append_assoc,
        List.singleton_append, List.cons_append, List.nil_append]
      rw [show i + 1 + j = i + (j + 1) by omega]

theorem sum_zipIdx_pick {α : Type} (l : List α) (f : α → ℝ) (i : ℕ) (off : ℕ) :
    ((l.zipIdx off).map fun s => (if s.2 = off + i then (1 : ℝ) else 0) * f s.1).sum =
      (l[i]?.map f).getD 0 := by
  induction l generalizing i off with
  | nil => simp
  | cons x l ih =>
    rw [List.zipIdx_cons, List.map_cons, List.sum_cons]
    cases i with
    | zero =>
      have hz : ((l.zipIdx (off + 1)).map fun s => (if s.2 = off + 0 then (1 : ℝ) else 0) * f s.1).sum = 0 := by
        apply List.sum_eq_zero
        intro y hy
        obtain ⟨s, hs, rfl⟩ := List.mem_map.1 hy
        have := List.le_snd_of_mem_zipIdx hs
        rw [if_neg (by omega), zero_mul]
      rw [hz]
      simp
    | succ i =>
      have := ih i (off + 1)
      rw [show off + 1 + i = off + (i + 1) by omega] at this
      rw [this]
      simp

/-- Reading the buffer: node `k` sees slot `tIdx k`. -/
theorem readBuffer_val (r : Reduced W) (buf : List (Fields r.m W B)) (w : W) (b : B) (k : Fin r.m) :
    (readBuffer r buf).val w b k = (buf[r.tIdx k]?.map fun x => x.val w b k).getD 0 := by
  have h1 := sum_zipIdx_pick buf (fun x => x.re w k b) (r.tIdx k) 0
  have h2 := sum_zipIdx_pick buf (fun x => x.im w k b) (r.tIdx k) 0
  simp only [zero_add] at h1 h2
  apply Complex.ext
  · simp only [Fields.val, readBuffer, Matrix.of_apply]
    rw [h1]
    cases buf[r.tIdx k]? <;> rfl
  · simp only [Fields.val, readBuffer, Matrix.of_apply]
    rw [h2]
    cases buf[r.tIdx k]? <;> rfl

theorem cmul_val (rM iM : W → Matrix (Fin m) (Fin m) ℝ) (x : Fields m W B) (w : W) (b : B) :
    (cmul rM iM x).val w b = cx (rM w) (iM w) *ᵥ x.val w b := by
  funext k
  apply Complex.ext
  · simp [Fields.val, cmul, Matrix.mulVec, dotProduct, Matrix.mul_apply, cx,
      Finset.sum_sub_distrib]
  · simp [Fields.val, cmul, Matrix.mulVec, dotProduct, Matrix.mul_apply, cx,
      Finset.sum_add_distrib]

theorem add_val (x y : Fields m W B) (w : W) (b : B) : (x.add y).val w b = x.val w b + y.val w b := by
  funext k
  apply Complex.ext <;> simp [Fields.val, Fields.add]

theorem stepField_passive (r : Reduced W) (hact : r.numAct = 0) (cs : List (Actor W B)) (t : ℝ)
    (s : Fields r.m W B) (buf : List (Fields r.m W B)) (w : W) (b : B) :
    (stepField r cs t s buf).val w b =
      cx (r.rC w) (r.iC w) *ᵥ (cx (r.rS w) (r.iS w) *ᵥ (readBuffer r buf).val w b + s.val w b) := by
  simp only [stepField, hact, if_true]
  rw [cmul_val, add_val, cmul_val]

/-- The values computed by the simulation, as a function of time (zero after the end). -/
noncomputable def traj (xs : List (Fields m W B)) (w : W) (b : B) (t : ℕ) (k : Fin m) : ℂ :=
  ((xs[t]?).map fun x => x.val w b k).getD 0

theorem take_append_replicate_get {α : Type} (l : List α) (z : α) (len q : ℕ) (h : q < len) :
    ((l ++ List.replicate len z).take len)[q]? = some (l.getD q z) := by
  rw [List.getElem?_take_of_lt h]
  by_cases hq : q < l.length
  · rw [List.getElem?_append_left hq, List.getElem?_eq_getElem hq]
    simp [List.getD, hq]
  · rw [List.getElem?_append_right (by omega), List.getElem?_replicate, if_pos (by omega)]
    simp [List.getD, List.getElem?_eq_none (Nat.le_of_not_lt hq)]

/-- What a node sees at step `j`: its own value `tIdx k + 1` steps ago. -/
theorem read_history (r : Reduced W) (xs : List (Fields r.m W B)) (len j : ℕ)
    (hlen : ∀ k, r.tIdx k < len) (hj : j ≤ xs.length) (w : W) (b : B) :
    (readBuffer r ((((xs.take j).reverse ++ []) ++ List.replicate len (zeroF r.m W B)).take len)).val w b =
      delayed (fun k => r.tIdx k + 1) (traj xs w b) j := by
  funext k
  rw [readBuffer_val, take_append_replicate_get _ _ _ _ (hlen k), List.append_nil]
  simp only [Option.map_some, Option.getD_some, delayed]
  split
  · rename_i h
    have h1 : r.tIdx k < (xs.take j).length := by rw [List.length_take]; omega
    simp only [List.getD, List.getElem?_reverse h1, traj]
    rw [List.length_take, Nat.min_eq_left hj, List.getElem?_take_of_lt (by omega)]
    have h2 : j - 1 - r.tIdx k < xs.length := by omega
    rw [show j - (r.tIdx k + 1) = j - 1 - r.tIdx k by omega, List.getElem?_eq_getElem h2]
    rfl
  · rename_i h
    have h1 : (xs.take j).reverse.length ≤ r.tIdx k := by
      rw [List.length_reverse, List.length_take]; omega
    simp only [List.getD, List.getElem?_eq_none h1, Option.getD_none, zeroF, Fields.val]
    rfl

/-- The recursion computed by a passive simulation. -/
theorem traj_step (r : Reduced W) (hact : r.numAct = 0) (cs : List (Actor W B))
    (src : ℕ → Fields r.m W B) (len : ℕ) (hlen : 0 < len) (hidx : ∀ k, r.tIdx k < len) (ts : List ℝ)
    (xs : List (Fields r.m W B)) (hxs : xs = simulate r cs src ts 0 (emptyBuffer len r.m W B))
    (j : ℕ) (hj : j < ts.length) (w : W) (b : B) :
    traj xs w b j =
      cx (r.rC w) (r.iC w) *ᵥ
        (cx (r.rS w) (r.iS w) *ᵥ delayed (fun k => r.tIdx k + 1) (traj xs w b) j +
          (src j).val w b) := by
  have hlen' : xs.length = ts.length := by rw [hxs, simulate_length]
  have h := simulate_get r cs src len hlen ts 0 [] j hj xs (by
    rw [hxs, emptyBuffer_eq, List.nil_append, List.take_of_length_le (by simp)])
  have h2 : traj xs w b j = Fields.val (stepField r cs ts[j] (src (0 + j))
      ((((xs.take j).reverse ++ []) ++ List.replicate len (zeroF r.m W B)).take len)) w b := by
    funext k
    rw [traj, h]
    rfl
  rw [h2, stepField_passive r hact, read_history r xs len j hidx (by omega), zero_add]

end PT
