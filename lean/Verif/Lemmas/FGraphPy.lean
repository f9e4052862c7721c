import Verif.Spec.Python
import Verif.Lemmas.SolveSafe

/-!
# Facts about the Python interface
-/

open Matrix

namespace Mrob

open World

namespace PyFactor

/-- The class and the constants of the object a call creates. -/
noncomputable def virt (ty : Robust) : PyFactor → FactorVirt
  | .prior2d obs _ W => .prior2d obs W ty
  | .rel2d obs o t W _ => .rel2d (if o < t then obs else -obs) W ty
  | .odom obs o t W => .odom (if o < t then obs else -obs) W ty
  | .prior3d obs _ W => .prior3d obs W ty
  | .rel3d obs _ _ W _ => .rel3d obs W ty
  | .land3d obs p l W _ => .land3d obs W (if p < l then false else true) ty
  | .land2d obs p l W _ => .land2d obs W (if p < l then false else true) ty
  | .plane4d obs p l W => .plane4d obs W (if p < l then false else true) ty
  | .p2plane px py ny _ W => .p2plane px py ny W ty

/-- The neighbour nodes of the object a call creates. -/
def nbrs : PyFactor → List ℕ
  | .prior2d _ n _ => [n]
  | .rel2d _ o t _ _ => if o < t then [o, t] else [t, o]
  | .odom _ o t _ => if o < t then [o, t] else [t, o]
  | .prior3d _ n _ => [n]
  | .rel3d _ o t _ _ => if o < t then [o, t] else [t, o]
  | .land3d _ p l _ _ => if p < l then [p, l] else [l, p]
  | .land2d _ p l _ _ => if p < l then [p, l] else [l, p]
  | .plane4d _ p l _ => if p < l then [p, l] else [l, p]
  | .p2plane _ _ _ n _ => [n]

theorem virt_psd (ty : Robust) {c : PyFactor} (h : c.InfoPsd) : (c.virt ty).W.PosSemidef := by
  cases c <;> exact h

theorem virt_robust (ty : Robust) (c : PyFactor) : (c.virt ty).robust = ty := by
  cases c <;> rfl

theorem nbrs_perm (c : PyFactor) : c.nbrs.Perm (c.uses.map Prod.fst) := by
  cases c <;> simp only [nbrs, uses, List.map_cons, List.map_nil, List.Perm.refl] <;> split <;>
    first | exact .refl _ | exact .swap _ _ _

/-- The classes of the neighbours agree with those the object expects. -/
theorem virt_kinds (ty : Robust) (c : PyFactor) {kind : ℕ → NodeKind} (h : ∀ u ∈ c.uses, kind u.1 = u.2) :
    c.nbrs.map kind = (c.virt ty).kinds := by
  cases c <;> simp [uses] at h <;> simp only [nbrs, virt] <;> (try split) <;>
    simp [FactorVirt.prior2d, FactorVirt.rel2d, FactorVirt.odom, FactorVirt.prior3d, FactorVirt.rel3d, FactorVirt.land2d,
      FactorVirt.land3d, FactorVirt.plane4d, FactorVirt.p2plane, h]

end PyFactor

/-! ### Nodes -/

theorem NodeCell.pose2d?_of_kind {c : NodeCell} (h : c.kind = .pose2d) : ∃ x, c.pose2d? = some x := by
  obtain ⟨k, obj, id, m, ns⟩ := c
  cases h
  exact ⟨_, rfl⟩

theorem NodeCell.pose3d?_of_kind {c : NodeCell} (h : c.kind = .pose3d) : ∃ x, c.pose3d? = some x := by
  obtain ⟨k, obj, id, m, ns⟩ := c
  cases h
  exact ⟨_, rfl⟩

theorem NodeCell.setVal_of_kind {c : NodeCell} {v : NodeVal} (h : v.1 = c.kind) :
    ∃ c', c.setVal v = .ok c' ∧ NodeCell.SameButState c c' := by
  rw [NodeCell.setVal, dif_pos h]
  exact ⟨_, rfl, ⟨_, rfl⟩⟩

theorem setN_same {w : World} {n : NRef} {c : NodeCell} (h : NodeCell.SameButState (w.nh n) c) (m : NRef) :
    NodeCell.SameButState (w.nh m) ((w.setN n c).nh m) := by
  change NodeCell.SameButState _ (Function.update w.nh n c m)
  by_cases hm : m = n
  · subst hm; rw [Function.update_self]; exact h
  · rw [Function.update_of_ne hm]; exact .refl _

theorem setN_other {w : World} {n m : NRef} {c : NodeCell} (h : m ≠ n) : (w.setN n c).nh m = w.nh m :=
  Function.update_of_ne h _ _

theorem initRel2d_ok {w : World} {obs : Vec3} {o t : NRef} (ho : (w.nh o).kind = .pose2d) (ht : (w.nh t).kind = .pose2d) :
    ∃ c, w.initRel2d obs o t = .ok (w.setN t c) ∧ NodeCell.SameButState (w.nh t) c := by
  obtain ⟨x, hx⟩ := NodeCell.pose2d?_of_kind ho
  obtain ⟨y, hy⟩ := NodeCell.pose2d?_of_kind ht
  rw [initRel2d, hx, hy]
  exact ⟨_, rfl, NodeCell.sameButState_update _ _⟩

theorem initOdom_ok {w : World} {obs : Vec3} {o t : NRef} (ho : (w.nh o).kind = .pose2d) (ht : (w.nh t).kind = .pose2d) :
    ∃ c, w.initOdom obs o t = .ok (w.setN t c) ∧ NodeCell.SameButState (w.nh t) c := by
  obtain ⟨x, hx⟩ := NodeCell.pose2d?_of_kind ho
  obtain ⟨y, hy⟩ := NodeCell.pose2d?_of_kind ht
  rw [initOdom, hx, hy]
  exact ⟨_, rfl, NodeCell.sameButState_update _ _⟩

theorem initRel3d_ok {w : World} {T : SE3} {o t : NRef} (ho : (w.nh o).kind = .pose3d) (ht : (w.nh t).kind = .pose3d) :
    ∃ c, w.initRel3d T o t = .ok (w.setN t c) ∧ NodeCell.SameButState (w.nh t) c := by
  obtain ⟨x, hx⟩ := NodeCell.pose3d?_of_kind ho
  obtain ⟨c, hc, hs⟩ := NodeCell.setVal_of_kind (c := w.nh t) (v := ⟨.pose3d, x.mul T⟩) ht.symm
  rw [initRel3d, hx]
  simp only [hc, Out.ok_bind]
  exact ⟨c, rfl, hs⟩

theorem initLand2d_ok {w : World} {obs : Vec2} {p l : NRef} (ho : (w.nh p).kind = .pose2d)
    (ht : (w.nh l).kind = .landmark2d) :
    ∃ c, w.initLand2d obs p l = .ok (w.setN l c) ∧ NodeCell.SameButState (w.nh l) c := by
  obtain ⟨x, hx⟩ := NodeCell.pose2d?_of_kind ho
  obtain ⟨c, hc, hs⟩ := NodeCell.setVal_of_kind (c := w.nh l) (v := ⟨.landmark2d, land2dInit obs x⟩) ht.symm
  rw [initLand2d, hx]
  simp only [hc, Out.ok_bind]
  exact ⟨c, rfl, hs⟩

/-! ### Creating a factor -/

/-- What an `add_factor_*` call leaves behind before the object is added. -/
structure Created (p : FGraphPy) (w : World) (c : PyFactor) (cell : FactorCell) (w' : World) : Prop where
  /-- class and constants -/
  virt : cell.virt = c.virt p.robust
  /-- neighbours -/
  nbrs : cell.nbrs = c.nbrs
  /-- `robust_weight_` -/
  weight : cell.weight = 0
  /-- the graph is not changed -/
  g : w'.g = w.g
  /-- other factors are not changed -/
  fh : w'.fh = w.fh
  /-- nodes only change their states -/
  nh : ∀ n, NodeCell.SameButState (w.nh n) (w'.nh n)
  /-- only the target is changed -/
  others : ∀ n, c.target ≠ some n → w'.nh n = w.nh n

theorem getNode_range {w : World} {N i : ℕ} (hn : w.g.nodes = List.range N) (hi : i < N) : w.getNode i = .ok i := by
  rw [getNode, hn, List.getElem?_range hi]

theorem getNode_invalid {w : World} {N i : ℕ} (hn : w.g.nodes = List.range N) (hi : N ≤ i) : w.getNode i = .ub := by
  rw [getNode, hn, List.getElem?_eq_none (by simpa using hi)]

theorem construct_ok {p : FGraphPy} {f : FRef} {w : World} {N : ℕ} (hn : w.g.nodes = List.range N)
    (hid : ∀ i < N, (w.nh i).id = i) (c : PyFactor) (hu : ∀ u ∈ c.uses, u.1 < N ∧ (w.nh u.1).kind = u.2) :
    ∃ cell w', p.construct f w c = .ok (cell, w') ∧ Created p w c cell w' := by
  have same : ∀ {cell : FactorCell} {c : PyFactor}, cell.virt = c.virt p.robust → cell.nbrs = c.nbrs → cell.weight = 0 →
      Created p w c cell w := fun h1 h2 h3 => ⟨h1, h2, h3, rfl, rfl, fun _ => .refl _, fun _ _ => rfl⟩
  have moved : ∀ {cell : FactorCell} {c : PyFactor} {t : NRef} {d : NodeCell}, cell.virt = c.virt p.robust →
      cell.nbrs = c.nbrs → cell.weight = 0 → c.target = some t → NodeCell.SameButState (w.nh t) d →
      Created p w c cell (w.setN t d) := fun h1 h2 h3 h4 h5 =>
    ⟨h1, h2, h3, rfl, rfl, setN_same h5, fun n hn => setN_other (by rintro rfl; exact hn h4)⟩
  cases c with
  | prior2d obs n W =>
    have h := hu (n, .pose2d) (by simp [PyFactor.uses])
    rw [FGraphPy.construct, getNode_range hn h.1, Out.ok_bind]
    exact ⟨_, _, rfl, same rfl rfl rfl⟩
  | prior3d obs n W =>
    have h := hu (n, .pose3d) (by simp [PyFactor.uses])
    rw [FGraphPy.construct, getNode_range hn h.1, Out.ok_bind]
    exact ⟨_, _, rfl, same rfl rfl rfl⟩
  | p2plane px py ny n W =>
    have h := hu (n, .pose3d) (by simp [PyFactor.uses])
    rw [FGraphPy.construct, getNode_range hn h.1, Out.ok_bind]
    exact ⟨_, _, rfl, same rfl rfl rfl⟩
  | rel2d obs o t W upd =>
    have h := hu (o, .pose2d) (by simp [PyFactor.uses])
    have h' := hu (t, .pose2d) (by simp [PyFactor.uses])
    have hcell : ∀ r0 J0, (FactorCell.newRel2d w.nh obs o t W p.robust r0 J0).virt =
        (PyFactor.rel2d obs o t W upd).virt p.robust ∧ (FactorCell.newRel2d w.nh obs o t W p.robust r0 J0).nbrs =
        (PyFactor.rel2d obs o t W upd).nbrs := by
      intro r0 J0
      simp only [FactorCell.newRel2d, FactorCell.new, Rel2d.new, hid o h.1, hid t h'.1, PyFactor.virt, PyFactor.nbrs]
      split <;> exact ⟨rfl, rfl⟩
    rw [FGraphPy.construct, getNode_range hn h.1, Out.ok_bind, getNode_range hn h'.1, Out.ok_bind]
    cases upd with
    | false => exact ⟨_, _, rfl, same (hcell _ _).1 (hcell _ _).2 rfl⟩
    | true =>
      obtain ⟨d, h1, h2⟩ := initRel2d_ok (obs := (Rel2d.new obs (w.nh o).id (w.nh t).id).obs) h.2 h'.2
      simp only [if_true, h1, Out.ok_bind]
      exact ⟨_, _, rfl, moved (hcell _ _).1 (hcell _ _).2 rfl rfl h2⟩
  | odom obs o t W =>
    have h := hu (o, .pose2d) (by simp [PyFactor.uses])
    have h' := hu (t, .pose2d) (by simp [PyFactor.uses])
    have hcell : ∀ r0 J0, (FactorCell.newOdom w.nh obs o t W p.robust r0 J0).virt =
        (PyFactor.odom obs o t W).virt p.robust ∧ (FactorCell.newOdom w.nh obs o t W p.robust r0 J0).nbrs =
        (PyFactor.odom obs o t W).nbrs := by
      intro r0 J0
      simp only [FactorCell.newOdom, FactorCell.new, Rel2d.new, hid o h.1, hid t h'.1, PyFactor.virt, PyFactor.nbrs]
      split <;> exact ⟨rfl, rfl⟩
    rw [FGraphPy.construct, getNode_range hn h.1, Out.ok_bind, getNode_range hn h'.1, Out.ok_bind]
    obtain ⟨d, h1, h2⟩ := initOdom_ok (obs := (Rel2d.new obs (w.nh o).id (w.nh t).id).obs) h.2 h'.2
    simp only [h1, Out.ok_bind]
    exact ⟨_, _, rfl, moved (hcell _ _).1 (hcell _ _).2 rfl rfl h2⟩
  | rel3d obs o t W upd =>
    have h := hu (o, .pose3d) (by simp [PyFactor.uses])
    have h' := hu (t, .pose3d) (by simp [PyFactor.uses])
    have hcell : ∀ r0 J0, (FactorCell.newRel3d w.nh obs o t W p.robust r0 J0).virt =
        (PyFactor.rel3d obs o t W upd).virt p.robust ∧ (FactorCell.newRel3d w.nh obs o t W p.robust r0 J0).nbrs =
        (PyFactor.rel3d obs o t W upd).nbrs := by
      intro r0 J0
      simp only [FactorCell.newRel3d, FactorCell.new, Rel3d.new, hid o h.1, hid t h'.1, PyFactor.virt, PyFactor.nbrs]
      split <;> exact ⟨rfl, rfl⟩
    rw [FGraphPy.construct, getNode_range hn h.1, Out.ok_bind, getNode_range hn h'.1, Out.ok_bind]
    cases upd with
    | false => exact ⟨_, _, rfl, same (hcell _ _).1 (hcell _ _).2 rfl⟩
    | true =>
      obtain ⟨d, h1, h2⟩ := initRel3d_ok (T := (Rel3d.new obs (w.nh o).id (w.nh t).id).Tobs) h.2 h'.2
      simp only [if_true, h1, Out.ok_bind]
      exact ⟨_, _, rfl, moved (hcell _ _).1 (hcell _ _).2 rfl rfl h2⟩
  | land3d obs o t W ini =>
    have h := hu (o, .pose3d) (by simp [PyFactor.uses])
    have h' := hu (t, .landmark3d) (by simp [PyFactor.uses])
    have hcell : ∀ r0 J0, (FactorCell.newLand3d w.nh obs o t W p.robust r0 J0).virt =
        (PyFactor.land3d obs o t W ini).virt p.robust ∧ (FactorCell.newLand3d w.nh obs o t W p.robust r0 J0).nbrs =
        (PyFactor.land3d obs o t W ini).nbrs ∧ (FactorCell.newLand3d w.nh obs o t W p.robust r0 J0).weight = 0 := by
      intro r0 J0
      simp only [FactorCell.newLand3d, FactorCell.new, hid o h.1, hid t h'.1, PyFactor.virt, PyFactor.nbrs]
      split <;> exact ⟨rfl, rfl, rfl⟩
    rw [FGraphPy.construct, getNode_range hn h.1, Out.ok_bind, getNode_range hn h'.1, Out.ok_bind]
    exact ⟨_, _, rfl, same (hcell _ _).1 (hcell _ _).2.1 (hcell _ _).2.2⟩
  | land2d obs o t W ini =>
    have h := hu (o, .pose2d) (by simp [PyFactor.uses])
    have h' := hu (t, .landmark2d) (by simp [PyFactor.uses])
    have hcell : ∀ r0 J0, (FactorCell.newLand2d w.nh obs o t W p.robust r0 J0).virt =
        (PyFactor.land2d obs o t W ini).virt p.robust ∧ (FactorCell.newLand2d w.nh obs o t W p.robust r0 J0).nbrs =
        (PyFactor.land2d obs o t W ini).nbrs ∧ (FactorCell.newLand2d w.nh obs o t W p.robust r0 J0).weight = 0 := by
      intro r0 J0
      simp only [FactorCell.newLand2d, FactorCell.new, hid o h.1, hid t h'.1, PyFactor.virt, PyFactor.nbrs]
      split <;> exact ⟨rfl, rfl, rfl⟩
    rw [FGraphPy.construct, getNode_range hn h.1, Out.ok_bind, getNode_range hn h'.1, Out.ok_bind]
    cases ini with
    | false => exact ⟨_, _, rfl, same (hcell _ _).1 (hcell _ _).2.1 (hcell _ _).2.2⟩
    | true =>
      obtain ⟨d, h1, h2⟩ := initLand2d_ok (obs := obs) h.2 h'.2
      simp only [if_true, h1, Out.ok_bind]
      exact ⟨_, _, rfl, moved (hcell _ _).1 (hcell _ _).2.1 (hcell _ _).2.2 rfl h2⟩
  | plane4d obs o t W =>
    have h := hu (o, .pose3d) (by simp [PyFactor.uses])
    have h' := hu (t, .plane4d) (by simp [PyFactor.uses])
    have hcell : ∀ r0 J0, (FactorCell.newPlane4d w.nh obs o t W p.robust r0 J0).virt =
        (PyFactor.plane4d obs o t W).virt p.robust ∧ (FactorCell.newPlane4d w.nh obs o t W p.robust r0 J0).nbrs =
        (PyFactor.plane4d obs o t W).nbrs ∧ (FactorCell.newPlane4d w.nh obs o t W p.robust r0 J0).weight = 0 := by
      intro r0 J0
      simp only [FactorCell.newPlane4d, FactorCell.new, hid o h.1, hid t h'.1, PyFactor.virt, PyFactor.nbrs]
      split <;> exact ⟨rfl, rfl, rfl⟩
    rw [FGraphPy.construct, getNode_range hn h.1, Out.ok_bind, getNode_range hn h'.1, Out.ok_bind]
    exact ⟨_, _, rfl, same (hcell _ _).1 (hcell _ _).2.1 (hcell _ _).2.2⟩

/-- A call that names a node that does not exist is undefined behaviour. -/
theorem construct_invalid {p : FGraphPy} {f : FRef} {w : World} {N : ℕ} (hn : w.g.nodes = List.range N) (c : PyFactor)
    (hu : ∃ u ∈ c.uses, N ≤ u.1) : p.construct f w c = .ub := by
  have one : ∀ {α : Type} {i : ℕ} (g : NRef → Out α), N ≤ i → (w.getNode i >>= g) = .ub := fun g h => by
    rw [getNode_invalid hn h, Out.ub_bind]
  have two : ∀ {α : Type} {o t : ℕ} (g : NRef → NRef → Out α), N ≤ o ∨ N ≤ t →
      (w.getNode o >>= fun o => w.getNode t >>= fun t => g o t) = .ub := by
    intro α o t g h
    by_cases ho : N ≤ o
    · exact one _ ho
    · rw [getNode_range hn (not_le.mp ho), Out.ok_bind]
      exact one _ (h.resolve_left ho)
  cases c <;> simp only [PyFactor.uses, List.mem_cons, List.not_mem_nil, or_false, exists_eq_or_imp, exists_eq_left] at hu <;>
    rw [FGraphPy.construct]
  · exact one _ hu
  · exact two _ hu
  · exact two _ hu
  · exact one _ hu
  · exact two _ hu
  · exact two _ hu
  · exact two _ hu
  · exact two _ hu
  · exact one _ hu

/-! ### The invariant -/

/-- The state of the object after calls that created the nodes `ns` and the factors `fs`. -/
structure PyInv (p : FGraphPy) (ns : List (NodeKind × Mode)) (fs : List PyFactor) : Prop where
  /-- `nodes_` -/
  nodes : p.s.w.g.nodes = List.range ns.length
  /-- `factors_` -/
  factors : p.s.w.g.factors = List.range fs.length
  /-- node objects -/
  node : ∀ i k, ns[i]? = some k → (p.s.w.nh i).kind = k.1 ∧ (p.s.w.nh i).mode = k.2 ∧ (p.s.w.nh i).id = i
  /-- factor objects -/
  factor : ∀ i c, fs[i]? = some c → (p.s.w.fh i).virt = c.virt p.robust ∧ (p.s.w.fh i).nbrs = c.nbrs ∧
    (p.s.w.fh i).id = i ∧ 0 ≤ (p.s.w.fh i).weight
  /-- `active_nodes_` -/
  active : p.s.w.g.active = (List.range ns.length).filter fun i => (p.s.w.nh i).mode = .standard
  /-- `stateDim_` -/
  stateDim : p.s.w.g.stateDim = total (fun n => (p.s.w.nh n).dim) p.s.w.g.active
  /-- `obsDim_` -/
  obsDim : p.s.w.g.obsDim = total (fun f => (p.s.w.fh f).virt.dim) p.s.w.g.factors

theorem PyFactor.Fits.append {ns : List (NodeKind × Mode)} {c : PyFactor} (h : c.Fits ns) (ns' : List (NodeKind × Mode)) :
    c.Fits (ns ++ ns') := by
  refine ⟨fun u hu => ?_, h.2⟩
  obtain ⟨m, hm⟩ := h.1 u hu
  exact ⟨m, by rw [List.getElem?_append_left (List.getElem?_eq_some_iff.mp hm).1]; exact hm⟩

namespace PyInv

variable {p : FGraphPy} {ns : List (NodeKind × Mode)} {fs : List PyFactor}

theorem uses' (h : PyInv p ns fs) {c : PyFactor} (hc : ∀ u ∈ c.uses, ∃ m, ns[u.1]? = some (u.2, m)) :
    ∀ u ∈ c.uses, u.1 < ns.length ∧ (p.s.w.nh u.1).kind = u.2 := by
  intro u hu
  obtain ⟨m, hm⟩ := hc u hu
  exact ⟨(List.getElem?_eq_some_iff.mp hm).1, (h.node _ _ hm).1⟩

theorem uses (h : PyInv p ns fs) {c : PyFactor} (hc : c.Fits ns) :
    ∀ u ∈ c.uses, u.1 < ns.length ∧ (p.s.w.nh u.1).kind = u.2 := h.uses' hc.1

theorem ids (h : PyInv p ns fs) : ∀ i < ns.length, (p.s.w.nh i).id = i := fun i hi =>
  (h.node i ns[i] (List.getElem?_eq_getElem hi)).2.2

theorem wired (h : PyInv p ns fs) (hm : ∀ k ∈ ns, k.2 ≠ .schur) (hf : ∀ c ∈ fs, c.Fits ns) : Wired p.s.w := by
  have hfac : ∀ f ∈ p.s.w.g.factors, ∃ c ∈ fs, (p.s.w.fh f).virt = c.virt p.robust ∧ (p.s.w.fh f).nbrs = c.nbrs := by
    intro f hf
    rw [h.factors, List.mem_range] at hf
    have := h.factor f fs[f] (List.getElem?_eq_getElem hf)
    exact ⟨fs[f], List.getElem_mem _, this.1, this.2.1⟩
  have hlt : ∀ c ∈ fs, ∀ n ∈ c.nbrs, n < ns.length := by
    intro c hc n hn
    obtain ⟨u, hu, rfl⟩ := List.mem_map.mp ((c.nbrs_perm.mem_iff).mp hn)
    exact (h.uses (hf c hc) u hu).1
  constructor
  · rw [h.active]; exact List.nodup_range.filter _
  · intro a ha b hb hab
    rw [h.active, List.mem_filter, List.mem_range] at ha hb
    rwa [h.ids a ha.1, h.ids b hb.1] at hab
  · intro a ha
    rw [h.active, List.mem_filter] at ha
    rw [of_decide_eq_true ha.2]; simp
  · intro f hf' n hn hna
    obtain ⟨c, hc, -, h2⟩ := hfac f hf'
    rw [h2] at hn
    have hl := hlt c hc n hn
    rw [h.active, List.mem_filter, List.mem_range]
    refine ⟨hl, decide_eq_true ?_⟩
    have h3 := (h.node n ns[n] (List.getElem?_eq_getElem hl)).2.1
    have h4 := hm ns[n] (List.getElem_mem _)
    rw [h3] at hna ⊢
    revert hna h4
    cases ns[n].2 <;> simp
  · intro f hf'
    obtain ⟨c, hc, -, h2⟩ := hfac f hf'
    rw [h2]
    exact ((c.nbrs_perm.nodup_iff).mpr (hf c hc).2).filter _
  · intro f hf'
    obtain ⟨c, hc, h1, h2⟩ := hfac f hf'
    rw [FactorCell.wellTyped, h1, h2]
    exact c.virt_kinds p.robust fun u hu => (h.uses (hf c hc) u hu).2
  · exact h.stateDim
  · exact h.obsDim.ge

theorem wellPosed (h : PyInv p ns fs) (hm : ∀ k ∈ ns, k.2 ≠ .schur) (hf : ∀ c ∈ fs, c.Fits ns)
    (hp : ∀ c ∈ fs, c.InfoPsd) : WellPosed p.s.w := by
  refine ⟨h.wired hm hf, fun f hf' => ?_, fun f hf' => ?_⟩ <;> rw [h.factors, List.mem_range] at hf' <;>
    have h1 := h.factor f fs[f] (List.getElem?_eq_getElem hf')
  · rw [h1.1]; exact PyFactor.virt_psd _ (hp _ (List.getElem_mem _))
  · exact h1.2.2.2

/-- A new object. -/
theorem new (robust : Robust) (nh : NRef → NodeCell) (fh : FRef → FactorCell)
    (mem : FRef → (d : ℕ) → (Fin d → ℝ) × (Fin d → ℕ → ℝ)) : PyInv (FGraphPy.new robust nh fh mem) [] [] :=
  ⟨rfl, rfl, fun i k h => by simp at h, fun i k h => by simp at h, rfl, rfl, rfl⟩

theorem total_congr {α : Type} {f g : α → ℕ} {l : List α} (h : ∀ a ∈ l, f a = g a) : total f l = total g l := by
  rw [total, total]; exact congrArg _ (List.map_congr_left h)

/-- `add_node_*`. -/
theorem addNode (h : PyInv p ns fs) (k : NodeKind) (x : k.State) (m : Mode) :
    PyInv (p.addNode k x m).2 (ns ++ [(k, m)]) fs ∧ (p.addNode k x m).1 = ns.length ∧
      ((p.addNode k x m).2.s.w.nh ns.length).val = ⟨k, k.construct x⟩ := by
  set N := ns.length with hN
  have hlen : p.s.w.g.nodes.length = N := by rw [h.nodes, List.length_range]
  set w1 := p.s.w.setN N (NodeCell.new k x m) with hw1
  have hw : (p.addNode k x m).2.s.w = (w1.addNode N).2 := by
    rw [FGraphPy.addNode]; simp only [hlen]; rfl
  have hnew : w1.nh N = NodeCell.new k x m := Function.update_self _ _ _
  have hlen1 : w1.g.nodes.length = N := hlen
  have hnh : ∀ i, ((w1.addNode N).2.nh i) = if i = N then { NodeCell.new k x m with id := N } else p.s.w.nh i := by
    intro i
    rw [addNode_nh, hnew, hlen1]
    by_cases hi : i = N
    · subst hi; rw [Function.update_self, if_pos rfl]
    · rw [Function.update_of_ne hi, if_neg hi]; exact Function.update_of_ne hi _ _
  have hmode : ((w1.addNode N).2.nh N).mode = m := by rw [hnh, if_pos rfl]; rfl
  have hact : ∀ n ∈ p.s.w.g.active, n ≠ N := by
    intro n hn
    rw [h.active, List.mem_filter, List.mem_range] at hn
    exact Nat.ne_of_lt hn.1
  have hfilter : (List.range N).filter (fun i => ((w1.addNode N).2.nh i).mode = .standard) = p.s.w.g.active := by
    rw [h.active]
    refine List.filter_congr fun i hi => ?_
    rw [hnh, if_neg (Nat.ne_of_lt (List.mem_range.mp hi))]
  have hactive : (w1.addNode N).2.g.active = if m = .standard then p.s.w.g.active ++ [N] else p.s.w.g.active := by
    rw [addNode_active, hnew]; rfl
  refine ⟨?_, ?_, ?_⟩
  · constructor
    · rw [hw, addNode_nodes, List.length_append, List.length_singleton, List.range_succ]
      rw [← hN, ← h.nodes]; rfl
    · rw [hw, addNode_factors, ← h.factors]; rfl
    · intro i q hi
      rw [hw, hnh]
      by_cases hiN : i = N
      · subst hiN
        rw [hN, List.getElem?_append_right le_rfl, Nat.sub_self] at hi
        simp at hi
        rw [if_pos rfl, ← hi]
        exact ⟨rfl, rfl, rfl⟩
      · have hl := (List.getElem?_eq_some_iff.mp hi).1
        rw [List.length_append, List.length_singleton] at hl
        rw [List.getElem?_append_left (Nat.lt_of_le_of_ne (Nat.lt_succ_iff.mp hl) ‹_›)] at hi
        rw [if_neg hiN]
        exact h.node i q hi
    · rw [hw, addNode_fh]; exact h.factor
    · rw [hw, hactive, List.length_append, List.length_singleton, List.range_succ, List.filter_append, hfilter]
      rw [List.filter_singleton, hmode]
      cases m <;> simp [hN]
    · rw [hw, addNode_stateDim, hactive, hnew]
      have e : total (fun n => ((w1.addNode N).2.nh n).dim) p.s.w.g.active = p.s.w.g.stateDim := by
        rw [h.stateDim]
        exact total_congr fun n hn => by rw [hnh, if_neg (hact n hn)]
      have e2 : ((w1.addNode N).2.nh N).dim = (NodeCell.new k x m).dim := by rw [hnh, if_pos rfl]; rfl
      change p.s.w.g.stateDim + (if m = .standard then _ else 0) = _
      split
      · rw [total, List.map_append, List.sum_append]
        change _ = total _ _ + _
        rw [e]; simp [e2]
      · rw [e]; rfl
    · rw [hw, addNode_obsDim, addNode_factors, addNode_fh]; exact h.obsDim
  · rw [FGraphPy.addNode]
    simp only [hlen]
    change (((w1.addNode N).2).nh N).id = _
    rw [hnh, if_pos rfl]
  · rw [hw, hnh, if_pos rfl]; rfl

/-- `add_factor_*`. -/
theorem addFactor' (h : PyInv p ns fs) {c : PyFactor} (hc : ∀ u ∈ c.uses, ∃ m, ns[u.1]? = some (u.2, m)) :
    ∃ p', p.addFactor c = .ok (fs.length, p') ∧ PyInv p' ns (fs ++ [c]) ∧
      (∀ n, c.target ≠ some n → (p'.s.w.nh n).val = (p.s.w.nh n).val) ∧ p'.robust = p.robust ∧
      ∃ cell w, p.construct fs.length p.s.w c = .ok (cell, w) ∧ ∀ n, (p'.s.w.nh n).val = (w.nh n).val := by
  set F := fs.length with hF
  have hlen : p.s.w.g.factors.length = F := by rw [h.factors, List.length_range]
  obtain ⟨cell, w, h1, h2⟩ := construct_ok (p := p) (f := F) h.nodes h.ids c (h.uses' hc)
  set w1 := w.setF F cell with hw1
  have hcell : w1.fh F = cell := Function.update_self _ _ _
  have hlen1 : w1.g.factors.length = F := by change w.g.factors.length = F; rw [h2.g, hlen]
  have hfh : ∀ f, (w1.addFactor F).2.fh f = if f = F then { cell with id := F } else p.s.w.fh f := by
    intro f
    rw [addFactor_fh, hcell, hlen1]
    by_cases hf : f = F
    · subst hf; rw [Function.update_self, if_pos rfl]
    · rw [Function.update_of_ne hf, if_neg hf]
      exact (Function.update_of_ne hf _ _).trans (congrFun h2.fh f)
  have hnh : ∀ n, (w1.addFactor F).2.nh n = { w.nh n with nbrs := (w.nh n).nbrs ++ List.replicate (cell.nbrs.count n) F } := by
    intro n; rw [addFactor_nh, hcell]; rfl
  have hst : ∀ n, ((w1.addFactor F).2.nh n).kind = (p.s.w.nh n).kind ∧ ((w1.addFactor F).2.nh n).mode = (p.s.w.nh n).mode ∧
      ((w1.addFactor F).2.nh n).id = (p.s.w.nh n).id ∧ ((w1.addFactor F).2.nh n).dim = (p.s.w.nh n).dim := by
    intro n
    rw [hnh]
    obtain ⟨y, hy⟩ := h2.nh n
    rw [hy]
    exact ⟨rfl, rfl, rfl, rfl⟩
  refine ⟨{ p with s := { p.s with w := (w1.addFactor F).2 } }, ?_, ?_, ?_, rfl, cell, w, h1, fun n => ?_⟩
  · rw [FGraphPy.addFactor]
    simp only [hlen, h1, Out.ok_bind]
    have : ((w1.addFactor F).2.fh F).id = F := by rw [hfh, if_pos rfl]
    change Out.ok (((w1.addFactor F).2.fh F).id, _) = _
    rw [this]
  · constructor
    · change (w1.addFactor F).2.g.nodes = _
      rw [addFactor_nodes]; change w.g.nodes = _; rw [h2.g, h.nodes]
    · change (w1.addFactor F).2.g.factors = _
      rw [addFactor_factors, List.length_append, List.length_singleton, List.range_succ]
      change w.g.factors ++ [F] = _
      rw [h2.g, h.factors]
    · intro i k hi
      change ((w1.addFactor F).2.nh i).kind = _ ∧ ((w1.addFactor F).2.nh i).mode = _ ∧ ((w1.addFactor F).2.nh i).id = _
      rw [(hst i).1, (hst i).2.1, (hst i).2.2.1]
      exact h.node i k hi
    · intro i d hi
      change ((w1.addFactor F).2.fh i).virt = _ ∧ ((w1.addFactor F).2.fh i).nbrs = _ ∧ ((w1.addFactor F).2.fh i).id = _ ∧
        0 ≤ ((w1.addFactor F).2.fh i).weight
      rw [hfh]
      by_cases hiF : i = F
      · subst hiF
        rw [hF, List.getElem?_append_right le_rfl, Nat.sub_self] at hi
        simp at hi
        rw [if_pos rfl, ← hi]
        exact ⟨h2.virt, h2.nbrs, rfl, h2.weight.ge⟩
      · have hl := (List.getElem?_eq_some_iff.mp hi).1
        rw [List.length_append, List.length_singleton] at hl
        rw [List.getElem?_append_left (Nat.lt_of_le_of_ne (Nat.lt_succ_iff.mp hl) ‹_›)] at hi
        rw [if_neg hiF]
        exact h.factor i d hi
    · change (w1.addFactor F).2.g.active = (List.range ns.length).filter fun i => ((w1.addFactor F).2.nh i).mode = .standard
      rw [addFactor_active]
      change w.g.active = _
      rw [h2.g, h.active]
      exact List.filter_congr fun i _ => by rw [(hst i).2.1]
    · change (w1.addFactor F).2.g.stateDim = total (fun n => ((w1.addFactor F).2.nh n).dim) (w1.addFactor F).2.g.active
      rw [addFactor_stateDim, addFactor_active]
      change w.g.stateDim = total _ w.g.active
      rw [h2.g, h.stateDim]
      exact total_congr fun n _ => (hst n).2.2.2.symm
    · change (w1.addFactor F).2.g.obsDim = total (fun f => ((w1.addFactor F).2.fh f).virt.dim) (w1.addFactor F).2.g.factors
      rw [addFactor_obsDim, addFactor_factors, hcell]
      change w.g.obsDim + _ = total _ (w.g.factors ++ [F])
      rw [h2.g, h.obsDim, total, total, List.map_append, List.sum_append]
      congr 1
      · refine congrArg _ (List.map_congr_left fun f hf => ?_)
        rw [h.factors, List.mem_range] at hf
        rw [hfh, if_neg (Nat.ne_of_lt hf)]
      · rw [List.map_singleton, List.sum_singleton, hfh, if_pos rfl]
  · intro n hn
    change ((w1.addFactor F).2.nh n).val = _
    rw [hnh, ← h2.others n hn]
    rfl
  · change ((w1.addFactor F).2.nh n).val = _
    rw [hnh]
    rfl

theorem addFactor (h : PyInv p ns fs) {c : PyFactor} (hc : c.Fits ns) :
    ∃ p', p.addFactor c = .ok (fs.length, p') ∧ PyInv p' ns (fs ++ [c]) ∧
      (∀ n, c.target ≠ some n → (p'.s.w.nh n).val = (p.s.w.nh n).val) ∧ p'.robust = p.robust ∧
      ∃ cell w, p.construct fs.length p.s.w c = .ok (cell, w) ∧ ∀ n, (p'.s.w.nh n).val = (w.nh n).val := h.addFactor' hc.1

/-- The factors fit their nodes. -/
theorem typed (h : PyInv p ns fs) (hf : ∀ c ∈ fs, ∀ u ∈ c.uses, ∃ m, ns[u.1]? = some (u.2, m)) :
    ∀ f ∈ p.s.w.g.factors, (p.s.w.fh f).wellTyped p.s.w.nh := by
  intro f hff
  rw [h.factors, List.mem_range] at hff
  have hc := h.factor f fs[f] (List.getElem?_eq_getElem hff)
  change (p.s.w.fh f).nbrs.map (fun n => (p.s.w.nh n).kind) = (p.s.w.fh f).virt.kinds
  rw [hc.1, hc.2.1]
  exact PyFactor.virt_kinds _ _ fun u hu => (h.uses' (hf _ (List.getElem_mem hff)) u hu).2

/-- Solver calls. -/
theorem frame (h : PyInv p ns fs) {s' : FGraphSolve} (hF : Frame p.s.w s'.w)
    (hw : ∀ f ∈ p.s.w.g.factors, 0 ≤ (s'.w.fh f).weight) : PyInv { p with s := s' } ns fs := by
  have hg : s'.w.g = p.s.w.g := hF.factors.g
  constructor
  · change s'.w.g.nodes = _; rw [hg]; exact h.nodes
  · change s'.w.g.factors = _; rw [hg]; exact h.factors
  · intro i k hi
    change (s'.w.nh i).kind = _ ∧ (s'.w.nh i).mode = _ ∧ (s'.w.nh i).id = _
    rw [(hF.active i).kind, (hF.active i).mode, (hF.active i).id]
    exact h.node i k hi
  · intro i c hi
    have h1 := h.factor i c hi
    have hm : i ∈ p.s.w.g.factors := by
      rw [h.factors, List.mem_range]; exact (List.getElem?_eq_some_iff.mp hi).1
    change (s'.w.fh i).virt = _ ∧ (s'.w.fh i).nbrs = _ ∧ (s'.w.fh i).id = _ ∧ 0 ≤ (s'.w.fh i).weight
    rw [hF.factors.virt, hF.factors.nbrs, hF.factors.id]
    exact ⟨h1.1, h1.2.1, h1.2.2.1, hw i hm⟩
  · change s'.w.g.active = (List.range ns.length).filter fun i => (s'.w.nh i).mode = .standard
    rw [hg, h.active]
    exact List.filter_congr fun i _ => by rw [(hF.active i).mode]
  · change s'.w.g.stateDim = total (fun n => (s'.w.nh n).dim) s'.w.g.active
    rw [hg, h.stateDim]
    exact total_congr fun n _ => ((hF.active n).dim).symm
  · change s'.w.g.obsDim = total (fun f => (s'.w.fh f).virt.dim) s'.w.g.factors
    rw [hg, h.obsDim]
    exact total_congr fun f _ => by rw [hF.factors.virt]

end PyInv

/-! ### Histories -/

namespace FGraphPy

open Mrob

theorem legal_created : ∀ {cs : List Call} {ns : List (NodeKind × Mode)}, Legal ns cs → ∀ k ∈ created cs, k.2 ≠ .schur
  | [], _, _ => by simp [created]
  | .node k x m :: cs, ns, h => by
    intro q hq
    rw [created, List.mem_cons] at hq
    rcases hq with rfl | hq
    · exact h.1
    · exact legal_created h.2 q hq
  | .factor c :: cs, ns, h => legal_created (cs := cs) h.2
  | .solve .. :: cs, ns, h => legal_created (cs := cs) (ns := ns) h
  | .chi2 :: cs, ns, h => legal_created (cs := cs) (ns := ns) h

theorem legal_fits : ∀ {cs : List Call} {ns : List (NodeKind × Mode)}, Legal ns cs →
    ∀ c ∈ factorsOf cs, c.Fits (ns ++ created cs)
  | [], _, _ => by simp [factorsOf]
  | .node k x m :: cs, ns, h => by
    have := legal_fits (cs := cs) h.2
    rw [factorsOf, created]
    rwa [List.append_assoc, List.singleton_append] at this
  | .factor c :: cs, ns, h => by
    intro d hd
    rw [factorsOf, List.mem_cons] at hd
    rcases hd with rfl | hd
    · exact h.1.append _
    · exact legal_fits (cs := cs) h.2 d hd
  | .solve .. :: cs, ns, h => legal_fits (cs := cs) (ns := ns) h
  | .chi2 :: cs, ns, h => legal_fits (cs := cs) (ns := ns) h

/-- What is known after a history. -/
structure After (p : FGraphPy) (ns : List (NodeKind × Mode)) (fs : List PyFactor) (cs : List Call) (q : FGraphPy) : Prop where
  /-- structure -/
  inv : PyInv q (ns ++ created cs) (fs ++ factorsOf cs)
  /-- `robust_type_` -/
  robust : q.robust = p.robust
  /-- anchors, and without `solve` all nodes, that are not set by a factor -/
  kept : ∀ i k, ns[i]? = some k → k.2 = .anchor ∨ NoSolve cs → (∀ c ∈ factorsOf cs, c.target ≠ some i) →
    (q.s.w.nh i).val = (p.s.w.nh i).val
  /-- the same for new nodes -/
  fresh : ∀ i k v, (created cs)[i]? = some k → (initial cs)[i]? = some v → k.2 = .anchor ∨ NoSolve cs →
    (∀ c ∈ factorsOf cs, c.target ≠ some (ns.length + i)) → (q.s.w.nh (ns.length + i)).val = v

theorem step_legal {p : FGraphPy} {ns : List (NodeKind × Mode)} {fs : List PyFactor} (h : PyInv p ns fs)
    (hm : ∀ k ∈ ns, k.2 ≠ .schur) (hf : ∀ c ∈ fs, c.Fits ns) (c : Call) (hl : Legal ns [c]) :
    p.step c = .nan ∨ ∃ q, (∃ r, p.step c = .ok (r, q) ∧ expectedIds ns.length fs.length [c] = [r]) ∧
      After p ns fs [c] q := by
  have hanchor : ∀ {s' : FGraphSolve}, Frame p.s.w s'.w → ∀ i k, ns[i]? = some k → k.2 = .anchor →
      (s'.w.nh i).val = (p.s.w.nh i).val := by
    intro s' hF i k hi hk
    have : i ∉ p.s.w.g.active := by
      rw [h.active, List.mem_filter]
      rintro ⟨-, h2⟩
      have := of_decide_eq_true h2
      rw [(h.node i k hi).2.1, hk] at this
      exact absurd this (by simp)
    rw [hF.inactive i this]
  cases c with
  | node k x m =>
    have h1 := h.addNode k x m
    refine .inr ⟨(p.addNode k x m).2, ⟨some ns.length, ?_, rfl⟩, ?_, rfl, ?_, ?_⟩
    · rw [step, h1.2.1]
    · rw [created, created, factorsOf, factorsOf, List.append_nil]; exact h1.1
    · intro i q hi _ _
      have hlt := (List.getElem?_eq_some_iff.mp hi).1
      have hlen : p.s.w.g.nodes.length = ns.length := by rw [h.nodes, List.length_range]
      rw [addNode]
      simp only [hlen]
      rw [addNode_nh, Function.update_of_ne (Nat.ne_of_lt hlt)]
      exact congrArg NodeCell.val (Function.update_of_ne (Nat.ne_of_lt hlt) _ _)
    · intro i q v hi hv _ _
      cases i with
      | zero =>
        rw [initial, List.getElem?_cons_zero, Option.some.injEq] at hv
        rw [← hv]; exact h1.2.2
      | succ i => simp [initial] at hv
  | factor c =>
    obtain ⟨p', h1, h2, h3, h4, -⟩ := h.addFactor hl.1
    refine .inr ⟨p', ⟨some fs.length, ?_, rfl⟩, ?_, h4, ?_, fun i q v hi => by simp [created] at hi⟩
    · rw [step, h1, Out.ok_bind]
    · rw [created, created, factorsOf, factorsOf, List.append_nil]; exact h2
    · intro i q _ _ ht
      exact h3 i (ht c (by simp [factorsOf]))
  | solve env m k l t =>
    rcases FGraphSolve.solve_safe (env := env) (h.wired hm hf) m k l t with h1 | ⟨s', h1⟩
    · exact .inl (by rw [step, h1, Out.nan_bind])
    · have hF := FGraphSolve.solve_frame h1
      refine .inr ⟨{ p with s := s' }, ⟨none, by rw [step, h1, Out.ok_bind], rfl⟩, ?_, rfl, ?_,
        fun i q v hi => by simp [created] at hi⟩
      · rw [created, created, factorsOf, factorsOf, List.append_nil, List.append_nil]
        refine h.frame hF (FGraphSolve.solve_weight h1 fun f hf' => ?_)
        rw [h.factors, List.mem_range] at hf'
        exact (h.factor f fs[f] (List.getElem?_eq_getElem hf')).2.2.2
      · intro i q hi hk _
        exact hanchor hF i q hi (hk.resolve_right fun h => h _ List.mem_cons_self _ _ _ _ _ rfl)
  | chi2 =>
    have h1 := chi2Eval_eq p.s.w (h.wired hm hf).typed
    have hF := FGraphSolve.chi2Eval_frame h1
    refine .inr ⟨{ p with s := { p.s with w := mapF (·.resd p.s.w.nh) p.s.w.g.factors p.s.w } }, ⟨none, by rw [step, h1, Out.ok_bind], rfl⟩, ?_, rfl, ?_,
        fun i q v hi => by simp [created] at hi⟩
    · rw [created, created, factorsOf, factorsOf, List.append_nil, List.append_nil]
      refine h.frame (s' := { p.s with w := mapF (·.resd p.s.w.nh) p.s.w.g.factors p.s.w }) hF fun f hf' => ?_
      have e : ((mapF (·.resd p.s.w.nh) p.s.w.g.factors p.s.w).fh f).weight = (p.s.w.fh f).weight := by
        rw [mapF_fh]; split <;> rfl
      change 0 ≤ ((mapF (·.resd p.s.w.nh) p.s.w.g.factors p.s.w).fh f).weight
      rw [e]
      rw [h.factors, List.mem_range] at hf'
      exact (h.factor f fs[f] (List.getElem?_eq_getElem hf')).2.2.2
    · intro i q hi hk _
      rfl

theorem created_cons (c : Call) (cs : List Call) : created (c :: cs) = created [c] ++ created cs := by
  cases c <;> simp [created]

theorem factorsOf_cons (c : Call) (cs : List Call) : factorsOf (c :: cs) = factorsOf [c] ++ factorsOf cs := by
  cases c <;> simp [factorsOf]

theorem expectedIds_cons (n f : ℕ) (c : Call) (cs : List Call) : expectedIds n f (c :: cs) =
    expectedIds n f [c] ++ expectedIds (n + (created [c]).length) (f + (factorsOf [c]).length) cs := by
  cases c <;> simp [expectedIds, created, factorsOf]

theorem legal_cons {ns : List (NodeKind × Mode)} {c : Call} {cs : List Call} (h : Legal ns (c :: cs)) :
    Legal ns [c] ∧ Legal (ns ++ created [c]) cs := by
  cases c with
  | node k x m => exact ⟨⟨h.1, trivial⟩, h.2⟩
  | factor c => exact ⟨⟨h.1, trivial⟩, by rw [created, created, List.append_nil]; exact h.2⟩
  | solve env m k l t => exact ⟨trivial, by rw [created, created, List.append_nil]; exact h⟩
  | chi2 => exact ⟨trivial, by rw [created, created, List.append_nil]; exact h⟩

/-- A legal history returns or produces NaN. -/
theorem run_legal : ∀ (cs : List Call) {p : FGraphPy} {ns : List (NodeKind × Mode)} {fs : List PyFactor}, PyInv p ns fs →
    (∀ k ∈ ns, k.2 ≠ .schur) → (∀ c ∈ fs, c.Fits ns) → Legal ns cs →
    run cs p = .nan ∨ ∃ q, run cs p = .ok (expectedIds ns.length fs.length cs, q) ∧ After p ns fs cs q
  | [], p, ns, fs, h, _, _, _ => .inr ⟨p, rfl, by
      rw [created, factorsOf, List.append_nil, List.append_nil]; exact h, rfl, fun _ _ _ _ _ => rfl,
      fun i q v hi => by simp [created] at hi⟩
  | c :: cs, p, ns, fs, h, hm, hf, hl => by
    have hlc := legal_cons hl
    rcases step_legal h hm hf c hlc.1 with h1 | ⟨q, ⟨r, h1, h2⟩, h3⟩
    · exact .inl (by rw [run, h1, Out.nan_bind])
    · have hm' : ∀ k ∈ ns ++ created [c], k.2 ≠ .schur := by
        intro k hk
        rcases List.mem_append.mp hk with hk | hk
        · exact hm k hk
        · exact legal_created hlc.1 k hk
      have hf' : ∀ d ∈ fs ++ factorsOf [c], d.Fits (ns ++ created [c]) := by
        intro d hd
        rcases List.mem_append.mp hd with hd | hd
        · exact (hf d hd).append _
        · exact legal_fits hlc.1 d hd
      rcases run_legal cs h3.inv hm' hf' hlc.2 with h4 | ⟨q', h4, h5⟩
      · exact .inl (by rw [run, h1, Out.ok_bind, h4, Out.nan_bind])
      · have hsub : ∀ d ∈ factorsOf cs, d ∈ factorsOf (c :: cs) := fun d hd => by
          rw [factorsOf_cons]; exact List.mem_append_right _ hd
        have hsub' : ∀ d ∈ factorsOf [c], d ∈ factorsOf (c :: cs) := fun d hd => by
          rw [factorsOf_cons]; exact List.mem_append_left _ hd
        have hno : NoSolve (c :: cs) → NoSolve cs := fun h d hd => h d (List.mem_cons_of_mem _ hd)
        have hno' : NoSolve (c :: cs) → NoSolve [c] := fun h d hd => h d (by
          rw [List.mem_singleton] at hd; rw [hd]; exact List.mem_cons_self)
        refine .inr ⟨q', ?_, ?_, h5.robust.trans h3.robust, ?_, ?_⟩
        · rw [run, h1, Out.ok_bind, h4, Out.ok_bind, expectedIds_cons ns.length, h2, List.length_append, List.length_append]
          rfl
        · rw [created_cons, factorsOf_cons, ← List.append_assoc, ← List.append_assoc]; exact h5.inv
        · intro i k hi hk ht
          rw [h5.kept i k (by rw [List.getElem?_append_left (List.getElem?_eq_some_iff.mp hi).1]; exact hi) (hk.imp id hno)
            fun d hd => ht d (hsub d hd)]
          exact h3.kept i k hi (hk.imp id hno') fun d hd => ht d (hsub' d hd)
        · have hcase : (∃ k x m, c = .node k x m) ∨ (created [c] = [] ∧ initial (c :: cs) = initial cs) := by
            cases c with
            | node k x m => exact .inl ⟨k, x, m, rfl⟩
            | factor c => exact .inr ⟨rfl, rfl⟩
            | solve env m k l t => exact .inr ⟨rfl, rfl⟩
            | chi2 => exact .inr ⟨rfl, rfl⟩
          rcases hcase with ⟨k, x, m, rfl⟩ | ⟨e1, e2⟩
          · intro i j v hj hv hk ht
            cases i with
            | zero =>
              rw [created, List.getElem?_cons_zero, Option.some.injEq] at hj
              rw [h5.kept (ns.length + 0) j (by rw [← hj]; simp [created]) (hk.imp id hno) fun d hd => ht d (hsub d hd)]
              exact h3.fresh 0 j v (by rw [← hj]; simp [created]) (by simpa [initial] using hv) (hk.imp id hno')
                fun d hd => ht d (hsub' d hd)
            | succ i =>
              have e : (ns ++ created [Call.node k x m]).length + i = ns.length + (i + 1) := by
                simp [created]; omega
              have := h5.fresh i j v (by simpa [created] using hj) (by simpa [initial] using hv) (hk.imp id hno)
                (by rw [e]; exact fun d hd => ht d (hsub d hd))
              rwa [e] at this
          · intro i j v hj hv hk ht
            rw [created_cons, e1, List.nil_append] at hj
            rw [e2] at hv
            have e : (ns ++ created [c]).length = ns.length := by rw [e1, List.append_nil]
            have := h5.fresh i j v hj hv (hk.imp id hno) (by rw [e]; exact fun d hd => ht d (hsub d hd))
            rwa [e] at this

end FGraphPy

end Mrob
