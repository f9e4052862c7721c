import Verif.Model.Dense
import Verif.Lemmas.SolveStep

/-!
# The normal equations of the dense solver
-/

open Matrix

namespace Mrob

open World

theorem blockEntry_zero {dim : NRef → ℕ} (X : ℕ → ℝ) {a : NRef} (k t : ℕ) {ns : List NRef} (h : a ∉ ns) :
    blockEntry dim X a k t ns = 0 := by
  induction ns generalizing t with
  | nil => rfl
  | cons n ns ih =>
    rw [List.mem_cons, not_or] at h
    rw [blockEntry, if_neg (Ne.symm h.1), ih _ h.2, add_zero]

theorem blockEntry_sum {dim : NRef → ℕ} {ι : Type*} (s : Finset ι) (x : ι → ℝ) (J : ι → ℕ → ℝ) (a : NRef) (k t : ℕ)
    (ns : List NRef) : blockEntry dim (fun c => ∑ l ∈ s, x l * J l c) a k t ns = ∑ l ∈ s, x l * blockEntry dim (J l) a k t ns := by
  induction ns generalizing t with
  | nil => simp [blockEntry]
  | cons n ns ih =>
    simp only [blockEntry]
    rw [ih]
    split
    · rw [← Finset.sum_add_distrib]
      exact Finset.sum_congr rfl fun l _ => by ring
    · simp

theorem findBlock_some {nh : NRef → NodeCell} {ns : List NRef} (hnd : ns.Nodup) {a : NRef} (ha : a ∈ ns)
    (hinj : ∀ m ∈ ns, (nh m).id = (nh a).id → m = a) (t : ℕ) :
    ∃ mi, findBlock nh (nh a).id t ns = some mi ∧ mi + (nh a).dim ≤ t + (ns.map fun m => (nh m).dim).sum ∧
      ∀ (X : ℕ → ℝ) (k : ℕ), blockEntry (fun n => (nh n).dim) X a k t ns = X (mi + k) := by
  induction ns generalizing t with
  | nil => simp at ha
  | cons n ns ih =>
    rw [List.nodup_cons] at hnd
    rw [findBlock]
    by_cases h : n = a
    · subst h
      refine ⟨t, if_pos rfl, ?_, fun X k => ?_⟩
      · rw [List.map_cons, List.sum_cons]; omega
      · rw [blockEntry, if_pos rfl, blockEntry_zero _ _ _ hnd.1, add_zero]
    · rw [if_neg fun e => h (hinj n List.mem_cons_self e)]
      obtain ⟨mi, h1, h2, h3⟩ := ih hnd.2 (by simpa [Ne.symm h] using ha) (fun m hm => hinj m (List.mem_cons_of_mem _ hm))
        (t + (nh n).dim)
      refine ⟨mi, h1, ?_, fun X k => ?_⟩
      · rw [List.map_cons, List.sum_cons]; omega
      · rw [blockEntry, if_neg h, h3, zero_add]

/-- What the inner loop adds in column `j`. -/
noncomputable def colSum (dim off : NRef → ℕ) (X : ℕ → ℝ) (j : ℕ) : ℕ → List NRef → ℝ
  | _, [] => 0
  | mj, m :: ms => (if off m ≤ j ∧ j < off m + dim m then X (mj + (j - off m)) else 0) + colSum dim off X j (mj + dim m) ms

theorem colSum_eq {dim off : NRef → ℕ} (X : ℕ → ℝ) {b : NRef} {l : ℕ} (hl : l < dim b) (mj : ℕ) (ms : List NRef)
    (hinj : ∀ m ∈ ms, ∀ k < dim m, off m + k = off b + l → m = b ∧ k = l) :
    colSum dim off X (off b + l) mj ms = blockEntry dim X b l mj ms := by
  induction ms generalizing mj with
  | nil => rfl
  | cons m ms ih =>
    rw [colSum, blockEntry, ih _ fun n hn => hinj n (List.mem_cons_of_mem _ hn)]
    congr 1
    by_cases h : m = b
    · subst h
      rw [if_pos (by omega), if_pos rfl, Nat.add_sub_cancel_left]
    · rw [if_neg h, if_neg]
      intro hc
      exact h (hinj m List.mem_cons_self (off b + l - off m) (by omega) (by omega)).1

/-- What the loop over the nodes adds in row `i`. -/
noncomputable def rowSum (dim : NRef → ℕ) (F : NRef → ℕ → ℝ) (i : ℕ) : ℕ → List NRef → ℝ
  | _, [] => 0
  | rn, n :: ns => (if rn ≤ i ∧ i < rn + dim n then F n (i - rn) else 0) + rowSum dim F i (rn + dim n) ns

theorem rowSum_lt {dim : NRef → ℕ} (F : NRef → ℕ → ℝ) {i rn : ℕ} (h : i < rn) (ns : List NRef) :
    rowSum dim F i rn ns = 0 := by
  induction ns generalizing rn with
  | nil => rfl
  | cons n ns ih => rw [rowSum, if_neg (by omega), ih (by omega), add_zero]

theorem rowSum_eq {dim : NRef → ℕ} (F : NRef → ℕ → ℝ) {ns : List NRef} {a : NRef} (ha : a ∈ ns)
    {k : ℕ} (hk : k < dim a) (rn : ℕ) : rowSum dim F (rn + (offset dim ns a + k)) rn ns = F a k := by
  induction ns generalizing rn with
  | nil => simp at ha
  | cons n ns ih =>
    rw [rowSum, offset]
    by_cases h : n = a
    · subst h
      rw [if_pos rfl, if_pos (by omega), rowSum_lt _ (by omega)]
      simp
    · rw [if_neg h, if_neg (by omega), zero_add]
      have := ih (by simpa [Ne.symm h] using ha) (rn + dim n)
      rw [← this]
      congr 1
      omega

namespace World

theorem denseInner_eq {N : ℕ} {nh : NRef → NodeCell} {ps : List (ℕ × ℕ)} (c : FactorCell) {rn dn : ℕ} (mi : ℕ)
    (hrn : rn + dn ≤ N) (off : NRef → ℕ) (ms : List NRef) (h : ∀ m ∈ ms, ps.lookup (nh m).id = some (off m))
    (hN : ∀ m ∈ ms, off m + (nh m).dim ≤ N) : ∀ (mj : ℕ) (a : DenseAcc),
    denseInner N nh ps c rn dn mi mj ms a = .ok
      ⟨fun i j => a.H i j + if rn ≤ i ∧ i < rn + dn then
          colSum (fun n => (nh n).dim) off (fun col => c.jtwj (mi + (i - rn)) col) j mj ms else 0,
        fun i => a.grad i + if rn ≤ i ∧ i < rn + dn then ms.length * c.jtwr (mi + (i - rn)) else 0⟩ := by
  induction ms with
  | nil => intro mj a; simp [denseInner, colSum]
  | cons m ms ih =>
    intro mj a
    rw [denseInner, h m List.mem_cons_self]
    dsimp only
    rw [denseBlock, if_pos ⟨hrn, hN m List.mem_cons_self⟩, Out.ok_bind,
      ih (fun n hn => h n (List.mem_cons_of_mem _ hn)) (fun n hn => hN n (List.mem_cons_of_mem _ hn))]
    congr 2
    · funext i j
      rw [colSum, add_assoc]
      congr 1
      by_cases hi : rn ≤ i ∧ i < rn + dn
      · rw [if_pos hi, if_pos hi]
        congr 1
        by_cases hj : off m ≤ j ∧ j < off m + (nh m).dim
        · rw [if_pos ⟨hi, hj⟩, if_pos hj]
        · rw [if_neg fun hc => hj hc.2, if_neg hj]
      · rw [if_neg hi, if_neg hi, if_neg fun hc => hi hc.1, add_zero]
    · funext i
      rw [add_assoc]
      congr 1
      split
      · rw [List.length_cons]; push_cast; ring
      · rw [add_zero]

/-- Row `k` of the block of node `n` times `W J` at column `col`. -/
noncomputable def rowH (nh : NRef → NodeCell) (c : FactorCell) (n : NRef) (k col : ℕ) : ℝ :=
  ∑ l, blockEntry (fun n => (nh n).dim) (c.J l) n k 0 c.nbrs * ∑ q, c.virt.W l q * c.J q col
/-- Row `k` of the block of node `n` times `W r`. -/
noncomputable def rowG (nh : NRef → NodeCell) (c : FactorCell) (n : NRef) (k : ℕ) : ℝ :=
  ∑ l, blockEntry (fun n => (nh n).dim) (c.J l) n k 0 c.nbrs * ∑ q, c.virt.W l q * c.r q

/-- What is known about the neighbour nodes of a factor. -/
structure FactorOK (N : ℕ) (nh : NRef → NodeCell) (ps : List (ℕ × ℕ)) (off : NRef → ℕ) (n : NRef) (rn : ℕ) (c : FactorCell) :
    Prop where
  nodup : c.nbrs.Nodup
  mem : n ∈ c.nbrs
  inj : ∀ m ∈ c.nbrs, (nh m).id = (nh n).id → m = n
  row : rn + (nh n).dim ≤ N
  look : ∀ m ∈ c.nbrs, ps.lookup (nh m).id = some (off m)
  bound : ∀ m ∈ c.nbrs, off m + (nh m).dim ≤ N

theorem denseFactor_eq {N : ℕ} {nh : NRef → NodeCell} {ps : List (ℕ × ℕ)} {off : NRef → ℕ} {n : NRef} {rn : ℕ}
    {c : FactorCell} (hc : FactorOK N nh ps off n rn c) (a : DenseAcc) :
    denseFactor N nh ps n rn c a = .ok
      ⟨fun i j => a.H i j + if rn ≤ i ∧ i < rn + (nh n).dim then
          colSum (fun n => (nh n).dim) off (rowH nh c n (i - rn)) j 0 c.nbrs else 0,
        fun i => a.grad i + if rn ≤ i ∧ i < rn + (nh n).dim then c.nbrs.length * rowG nh c n (i - rn) else 0⟩ := by
  obtain ⟨mi, h1, h2, h3⟩ := findBlock_some hc.nodup hc.mem hc.inj 0
  rw [Nat.zero_add] at h2
  rw [denseFactor, h1]
  dsimp only
  rw [if_pos h2, denseInner_eq c mi hc.row off c.nbrs hc.look hc.bound]
  have e1 : ∀ i, (fun col => c.jtwj (mi + i) col) = rowH nh c n i := by
    intro i; funext col
    rw [FactorCell.jtwj, rowH]
    exact Finset.sum_congr rfl fun l _ => by rw [h3]
  have e2 : ∀ i, c.jtwr (mi + i) = rowG nh c n i := by
    intro i
    rw [FactorCell.jtwr, rowG]
    exact Finset.sum_congr rfl fun l _ => by rw [h3]
  simp only [e1, e2]

theorem denseFactors_eq {N : ℕ} {w : World} {ps : List (ℕ × ℕ)} {off : NRef → ℕ} {n : NRef} {rn : ℕ} (fs : List FRef)
    (h : ∀ f ∈ fs, FactorOK N w.nh ps off n rn (w.fh f)) : ∀ a : DenseAcc,
    denseFactors N w ps n rn fs a = .ok
      ⟨fun i j => a.H i j + if rn ≤ i ∧ i < rn + (w.nh n).dim then (fs.map fun f =>
          colSum (fun n => (w.nh n).dim) off (rowH w.nh (w.fh f) n (i - rn)) j 0 (w.fh f).nbrs).sum else 0,
        fun i => a.grad i + if rn ≤ i ∧ i < rn + (w.nh n).dim then
          (fs.map fun f => (w.fh f).nbrs.length * rowG w.nh (w.fh f) n (i - rn)).sum else 0⟩ := by
  induction fs with
  | nil => intro a; simp [denseFactors]
  | cons f fs ih =>
    intro a
    rw [denseFactors, denseFactor_eq (h f List.mem_cons_self), Out.ok_bind,
      ih fun g hg => h g (List.mem_cons_of_mem _ hg)]
    congr 2
    · funext i j
      rw [add_assoc]; congr 1
      split
      · rw [List.map_cons, List.sum_cons]
      · rw [add_zero]
    · funext i
      rw [add_assoc]; congr 1
      split
      · rw [List.map_cons, List.sum_cons]
      · rw [add_zero]

theorem denseRows_eq {N : ℕ} {w : World} {ps : List (ℕ × ℕ)} {off : NRef → ℕ} (ns : List NRef) : ∀ (rn : ℕ) (a : DenseAcc),
    rn + total (fun n => (w.nh n).dim) ns ≤ N →
    (∀ n ∈ ns, ∀ f ∈ (w.nh n).nbrs, ∀ rn, rn + (w.nh n).dim ≤ N → FactorOK N w.nh ps off n rn (w.fh f)) →
    denseRows N w ps rn ns a = .ok
      ⟨fun i j => a.H i j + rowSum (fun n => (w.nh n).dim) (fun n k => ((w.nh n).nbrs.map fun f =>
          colSum (fun n => (w.nh n).dim) off (rowH w.nh (w.fh f) n k) j 0 (w.fh f).nbrs).sum) i rn ns,
        fun i => a.grad i + rowSum (fun n => (w.nh n).dim) (fun n k => ((w.nh n).nbrs.map fun f =>
          (w.fh f).nbrs.length * rowG w.nh (w.fh f) n k).sum) i rn ns⟩ := by
  induction ns with
  | nil => intro rn a _ _; simp [denseRows, rowSum]
  | cons n ns ih =>
    intro rn a hN h
    simp only [total, List.map_cons, List.sum_cons] at hN ih
    rw [denseRows, denseFactors_eq _ fun f hf => h n List.mem_cons_self f hf rn (by omega), Out.ok_bind,
      ih _ _ (by omega) fun m hm => h m (List.mem_cons_of_mem _ hm)]
    congr 2
    · funext i j
      rw [add_assoc, rowSum]
    · funext i
      rw [add_assoc, rowSum]

/-- Consistent graphs without anchors: every node is active, the nodes of the factors are in the graph, and the neighbour
lists of the nodes are those of the factors of the graph. -/
structure DenseWired (w : World) : Prop where
  /-- consistency -/
  wired : Wired w
  /-- no anchors -/
  nodes : w.g.nodes = w.g.active
  /-- factors connect nodes of the graph -/
  reg : ∀ f ∈ w.g.factors, ∀ n ∈ (w.fh f).nbrs, n ∈ w.g.active
  /-- neighbour factors of the nodes -/
  nbrs : ∀ n ∈ w.g.active, (w.nh n).nbrs = w.g.factors.filter fun f => n ∈ (w.fh f).nbrs

/-- The measurement term of a factor without robust weight. -/
noncomputable abbrev plainTerm (w : World) (f : FRef) : Spec.Term (Cols w) :=
  { factorTerm w f with W := (w.fh f).virt.W }

namespace DenseWired

variable {w : World}

theorem nodup (hw : DenseWired w) {f : FRef} (hf : f ∈ w.g.factors) : (w.fh f).nbrs.Nodup := by
  have := hw.wired.nbrs_nodup f hf
  rwa [List.filter_eq_self.mpr] at this
  intro n hn
  simpa using hw.wired.modes n (hw.reg f hf n hn)

theorem mapF (hw : DenseWired w) {φ : FactorCell → FactorCell} (hv : ∀ c, (φ c).virt = c.virt)
    (hn : ∀ c, (φ c).nbrs = c.nbrs) (l : List FRef) : DenseWired (mapF φ l w) := by
  have hn' : ∀ f, ((World.mapF φ l w).fh f).nbrs = (w.fh f).nbrs := by
    intro f; rw [mapF_fh]; split
    · exact hn _
    · rfl
  refine ⟨hw.wired.mapF hv hn l, hw.nodes, fun f hf n h => ?_, fun n h => ?_⟩
  · rw [hn'] at h; exact hw.reg f hf n h
  · simp only [hn']; exact hw.nbrs n h

theorem sum_nbrs (hw : DenseWired w) {n : NRef} (hn : n ∈ w.g.active) (F : FRef → ℝ)
    (h0 : ∀ f ∈ w.g.factors, n ∉ (w.fh f).nbrs → F f = 0) :
    ((w.nh n).nbrs.map F).sum = (w.g.factors.map F).sum := by
  rw [hw.nbrs n hn, sum_map_filter]
  congr 1
  refine List.map_congr_left fun f hf => ?_
  by_cases h : n ∈ (w.fh f).nbrs
  · simp [h]
  · simp [h, h0 f hf h]

/-- The world after the evaluation of the factors. -/
noncomputable abbrev evaled (w : World) : World := World.mapF (·.full w.nh) w.g.factors w

theorem gradHess (hw : DenseWired w) : ∃ (H : Matrix (Fin w.g.stateDim) (Fin w.g.stateDim) ℝ) (g : Fin w.g.stateDim → ℝ),
    w.denseGradHess = .ok (⟨w.g.stateDim, H, g⟩, evaled w) ∧
    H.submatrix (colEquiv hw.wired) (colEquiv hw.wired) = Spec.infoMatrix (w.g.factors.map (plainTerm w)) ∧
    (fun c => g (colEquiv hw.wired c)) = (w.g.factors.map fun f =>
      ((w.fh f).nbrs.length : ℝ) • (((plainTerm w f).Jᵀ * (plainTerm w f).W) *ᵥ (plainTerm w f).r)).sum := by
  set off := offset (fun n => (w.nh n).dim) w.g.active with hoff
  have hw1 : DenseWired (evaled w) := hw.mapF (φ := (·.full w.nh)) (fun _ => rfl) (fun _ => rfl) w.g.factors
  have hfh : ∀ f ∈ w.g.factors, (evaled w).fh f = (w.fh f).full w.nh := fun f hf => by rw [mapF_fh, if_pos hf]
  have hlook : ∀ m ∈ w.g.active, (colPairs w.nh 0 w.g.nodes).lookup (w.nh m).id = some (off m) := by
    intro m hm
    rw [hw.nodes, colPairs_lookup w.nh hw.wired.ids hm, Nat.zero_add]
  have hbound : ∀ m ∈ w.g.active, off m + (w.nh m).dim ≤ w.g.stateDim := by
    intro m hm
    have := offset_lt hm (k := (w.nh m).dim - 1) (dim := fun n => (w.nh n).dim) (by have := (w.nh m).dim_pos; omega)
    rw [hw.wired.stateDim]
    have := (w.nh m).dim_pos
    rw [hoff]
    omega
  have hok : ∀ n ∈ w.g.nodes, ∀ f ∈ ((evaled w).nh n).nbrs, ∀ rn, rn + ((evaled w).nh n).dim ≤ w.g.stateDim →
      FactorOK w.g.stateDim (evaled w).nh (colPairs w.nh 0 w.g.nodes) off n rn ((evaled w).fh f) := by
    intro n hn f hf rn hrn
    rw [hw.nodes] at hn
    have hf' : f ∈ (w.nh n).nbrs := hf
    rw [hw.nbrs n hn, List.mem_filter] at hf'
    obtain ⟨hf1, hf2⟩ := hf'
    have hf2 : n ∈ (w.fh f).nbrs := by simpa using hf2
    rw [hfh f hf1]
    exact ⟨hw.nodup hf1, hf2, fun m hm => hw.wired.ids m (hw.reg f hf1 m hm) n hn, hrn,
      fun m hm => hlook m (hw.reg f hf1 m hm), fun m hm => hbound m (hw.reg f hf1 m hm)⟩
  have hrows := denseRows_eq (N := w.g.stateDim) (w := evaled w) (ps := colPairs w.nh 0 w.g.nodes) (off := off) w.g.nodes
    0 ⟨fun _ _ => 0, fun _ => 0⟩ (by rw [Nat.zero_add, hw.nodes]; exact hw.wired.stateDim.ge) hok
  refine ⟨Matrix.of fun i j => rowSum (fun n => (w.nh n).dim) (fun n k => ((w.nh n).nbrs.map fun f =>
      colSum (fun n => (w.nh n).dim) off (rowH w.nh ((evaled w).fh f) n k) j 0 ((evaled w).fh f).nbrs).sum) i 0 w.g.nodes,
    fun i => rowSum (fun n => (w.nh n).dim) (fun n k => ((w.nh n).nbrs.map fun f =>
      (((evaled w).fh f).nbrs.length : ℝ) * rowG w.nh ((evaled w).fh f) n k).sum) i 0 w.g.nodes, ?_, ?_, ?_⟩
  rotate_left
  · ext ⟨⟨a, ha⟩, k⟩ ⟨⟨b, hb⟩, l⟩
    rw [Matrix.submatrix_apply, Matrix.of_apply, Spec.infoMatrix_apply, List.map_map, colEquiv_val, colEquiv_val]
    dsimp only
    have e := rowSum_eq (dim := fun n => (w.nh n).dim) (fun n k => ((w.nh n).nbrs.map fun f =>
      colSum (fun n => (w.nh n).dim) off (rowH w.nh ((evaled w).fh f) n k) (off b + l) 0 ((evaled w).fh f).nbrs).sum)
      (ns := w.g.nodes) (by rw [hw.nodes]; exact ha) k.2 0
    rw [Nat.zero_add, hw.nodes] at e
    rw [hw.nodes]
    refine e.trans ?_
    have key : ∀ f ∈ w.g.factors, colSum (fun n => (w.nh n).dim) off (rowH w.nh ((evaled w).fh f) a k) (off b + l) 0
        ((evaled w).fh f).nbrs = ((plainTerm w f).Jᵀ * (plainTerm w f).W * (plainTerm w f).J) ⟨⟨a, ha⟩, k⟩ ⟨⟨b, hb⟩, l⟩ := by
      intro f hf
      rw [hfh f hf]
      change colSum (fun n => (w.nh n).dim) off _ (off b + l) 0 (w.fh f).nbrs = _
      rw [colSum_eq _ l.2 _ _ fun m hm k hk he => offset_inj (hw.reg f hf m hm) hb hk l.2 he]
      rw [show rowH w.nh ((w.fh f).full w.nh) a k = fun col => ∑ p,
        blockEntry (fun n => (w.nh n).dim) (((w.fh f).full w.nh).J p) a k 0 (w.fh f).nbrs *
          (∑ q, (w.fh f).virt.W p q * ((w.fh f).full w.nh).J q col) from rfl]
      rw [blockEntry_sum, Matrix.mul_assoc, Matrix.mul_apply]
      refine Finset.sum_congr rfl fun p _ => ?_
      exact congrArg (blockEntry (fun n => (w.nh n).dim) (((w.fh f).full w.nh).J p) a k 0 (w.fh f).nbrs * ·)
        (blockEntry_sum Finset.univ (fun q => (w.fh f).virt.W p q) (fun q => ((w.fh f).full w.nh).J q) b l 0 (w.fh f).nbrs)
    refine (hw.sum_nbrs ha _ ?_).trans ?_
    · intro f hf hnot
      rw [key f hf, Matrix.mul_assoc, Matrix.mul_apply]
      refine Finset.sum_eq_zero fun p _ => ?_
      change blockEntry _ _ a k 0 (w.fh f).nbrs * _ = 0
      rw [blockEntry_zero _ _ _ hnot, zero_mul]
    · congr 1
      exact List.map_congr_left key
  · ext ⟨⟨a, ha⟩, k⟩
    change rowSum _ _ (offset (fun n => (w.nh n).dim) w.g.active a + k) 0 w.g.nodes = _
    have e := rowSum_eq (dim := fun n => (w.nh n).dim) (fun n k => ((w.nh n).nbrs.map fun f =>
      (((evaled w).fh f).nbrs.length : ℝ) * rowG w.nh ((evaled w).fh f) n k).sum)
      (ns := w.g.nodes) (by rw [hw.nodes]; exact ha) k.2 0
    rw [Nat.zero_add, hw.nodes] at e
    rw [hw.nodes]
    refine e.trans ?_
    have key : ∀ f ∈ w.g.factors, (((evaled w).fh f).nbrs.length : ℝ) * rowG w.nh ((evaled w).fh f) a k =
        (((w.fh f).nbrs.length : ℝ) • (((plainTerm w f).Jᵀ * (plainTerm w f).W) *ᵥ (plainTerm w f).r)) ⟨⟨a, ha⟩, k⟩ := by
      intro f hf
      rw [hfh f hf, Pi.smul_apply, smul_eq_mul, ← mulVec_mulVec]
      rfl
    refine (hw.sum_nbrs ha _ ?_).trans ?_
    · intro f hf hnot
      rw [key f hf, Pi.smul_apply, smul_eq_mul, ← mulVec_mulVec]
      rw [mul_eq_zero]; right
      refine (Finset.sum_eq_zero fun p _ => ?_ : (∑ p : Fin (w.fh f).virt.dim, blockEntry (fun n => (w.nh n).dim)
        ((w.fh f).virt.jac ((w.fh f).vals w.nh) p) a k 0 (w.fh f).nbrs * ((plainTerm w f).W *ᵥ (plainTerm w f).r) p) = 0)
      rw [blockEntry_zero _ _ _ hnot, zero_mul]
    · rw [List.map_congr_left key]
      generalize w.g.factors = fs
      induction fs with
      | nil => rfl
      | cons f fs ih => rw [List.map_cons, List.map_cons, List.sum_cons, List.sum_cons, Pi.add_apply, ih]
  · rw [denseGradHess, forAll_evalFull _ _ hw.wired.typed, Out.ok_bind]
    change (denseRows w.g.stateDim (evaled w) (colPairs w.nh 0 w.g.nodes) 0 w.g.nodes _ >>= _) = _
    rw [hrows, Out.ok_bind, Out.pure_eq]
    simp only [zero_add]
    rfl

end DenseWired

end World

end Mrob
