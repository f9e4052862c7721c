import Verif.Lemmas.Demo
import Verif.Props.Node

/-!
# Effects of the parts of the solver
-/

open Matrix

namespace Mrob

open World

/-! ### Node objects -/

namespace NodeCell

/-- The object with another `state_`. -/
def withState (c : NodeCell) (x : c.kind.State) : NodeCell := { c with obj := ⟨x, c.obj.aux⟩ }

/-- `c'` differs from `c` at most in `state_`. -/
def SameButState (c c' : NodeCell) : Prop := ∃ x, c' = c.withState x

theorem SameButState.refl (c : NodeCell) : SameButState c c := ⟨c.obj.state, rfl⟩

theorem SameButState.trans {a b c : NodeCell} (h : SameButState a b) (h' : SameButState b c) : SameButState a c := by
  obtain ⟨x, rfl⟩ := h
  obtain ⟨y, rfl⟩ := h'
  exact ⟨y, rfl⟩

theorem sameButState_update (c : NodeCell) (v : ℕ → ℝ) : SameButState c (c.update v) := ⟨_, rfl⟩

/-- `state_` and `auxiliaryState_` after a rejected step. -/
noncomputable def roundTrip (c : NodeCell) : NodeCell :=
  { c with obj := ⟨c.kind.store (c.kind.store c.obj.state), c.kind.store c.obj.state⟩ }

theorem bookkeep_bookkeep (c : NodeCell) : c.bookkeep.bookkeep = c.bookkeep := rfl
theorem restore_restore (c : NodeCell) : c.restore.restore = c.restore := rfl

theorem restore_of_same {c c' : NodeCell} (h : SameButState c.bookkeep c') : c'.restore = c.roundTrip := by
  obtain ⟨x, rfl⟩ := h
  rfl

/-- The value with the heading of a planar pose reduced. -/
noncomputable def _root_.Mrob.NodeVal.stored (v : NodeVal) : NodeVal := ⟨v.1, v.1.store v.2⟩

theorem store_store (k : NodeKind) (x : k.State) : k.store (k.store x) = k.store x := by
  cases k
  · change wrap2 (wrap2 x) = wrap2 x
    have := (C21_wrap_laws (x 2) 0).2.2.1
    simp only [wrap2]
    congr 1; congr 1; congr 1
  all_goals rfl

theorem roundTrip_val (c : NodeCell) : c.roundTrip.val = c.val.stored := by
  have : c.roundTrip.val = (⟨c.kind, c.kind.store (c.kind.store c.obj.state)⟩ : NodeVal) := rfl
  rw [this, store_store]
  rfl

end NodeCell

/-! ### Graph-level effects -/

namespace World

/-- `w'` has the graph and factor data of `w`: only stored evaluations and node objects may differ. -/
structure SameFactors (w w' : World) : Prop where
  /-- the graph -/
  g : w'.g = w.g
  /-- classes -/
  virt : ∀ f, (w'.fh f).virt = (w.fh f).virt
  /-- neighbours -/
  nbrs : ∀ f, (w'.fh f).nbrs = (w.fh f).nbrs
  /-- ids -/
  id : ∀ f, (w'.fh f).id = (w.fh f).id

theorem SameFactors.refl (w : World) : SameFactors w w := ⟨rfl, fun _ => rfl, fun _ => rfl, fun _ => rfl⟩

theorem SameFactors.trans {a b c : World} (h : SameFactors a b) (h' : SameFactors b c) : SameFactors a c :=
  ⟨h'.g.trans h.g, fun f => (h'.virt f).trans (h.virt f), fun f => (h'.nbrs f).trans (h.nbrs f),
    fun f => (h'.id f).trans (h.id f)⟩

theorem sameFactors_mapF {φ : FactorCell → FactorCell} (hv : ∀ c, (φ c).virt = c.virt) (hn : ∀ c, (φ c).nbrs = c.nbrs)
    (hi : ∀ c, (φ c).id = c.id) (l : List FRef) (w : World) : SameFactors w (mapF φ l w) := by
  refine ⟨rfl, fun f => ?_, fun f => ?_, fun f => ?_⟩ <;> rw [mapF_fh] <;> split <;> simp [hv, hn, hi]

theorem sameFactors_built (w : World) : SameFactors w w.built :=
  (sameFactors_mapF (φ := (·.full w.nh)) (fun _ => rfl) (fun _ => rfl) (fun _ => rfl) w.g.factors w).trans
    (sameFactors_mapF (φ := (·.weighted)) (fun _ => rfl) (fun _ => rfl) (fun _ => rfl) w.g.factors _)

theorem built_nh (w : World) : w.built.nh = w.nh := rfl
theorem built_g (w : World) : w.built.g = w.g := rfl

theorem cost_congr {w w' : World} (h : SameFactors w w')
    (hv : ∀ f ∈ w.g.factors, (w.fh f).virt.res ((w.fh f).nbrs.map fun n => (w'.nh n).val) =
      (w.fh f).virt.res ((w.fh f).nbrs.map fun n => (w.nh n).val)) : w'.cost = w.cost := by
  rw [cost, cost, h.g]
  congr 1
  refine List.map_congr_left fun f hf => ?_
  have e : factorChi2 (w'.fh f).virt.W ((w'.fh f).virt.res ((w'.fh f).vals w'.nh)) =
      factorChi2 (w.fh f).virt.W ((w.fh f).virt.res ((w.fh f).nbrs.map fun n => (w'.nh n).val)) := by
    rw [FactorCell.vals, h.nbrs, h.virt]
  rw [e, hv f hf]
  rfl

theorem cost_congr_nh {w w' : World} (h : SameFactors w w') (hv : ∀ n, (w'.nh n).val = (w.nh n).val) :
    w'.cost = w.cost := cost_congr h fun f _ => by simp only [hv]

theorem foldl_setN (φ : NodeCell → NodeCell) (hid : ∀ c, φ (φ c) = φ c) (l : List NRef) (w : World) :
    l.foldl (fun w n => w.setN n (φ (w.nh n))) w =
      { w with nh := fun n => if n ∈ l then φ (w.nh n) else w.nh n } := by
  induction l generalizing w with
  | nil => simp
  | cons a l ih =>
    rw [List.foldl_cons, ih]
    congr 1
    funext n
    rw [setN_nh]
    by_cases h : n = a
    · subst h
      rw [Function.update_self, hid]
      simp
    · rw [Function.update_of_ne h]
      simp [h]

theorem syncAux_eq (w : World) : w.syncAux =
    { w with nh := fun n => if n ∈ w.g.active then (w.nh n).bookkeep else w.nh n } :=
  foldl_setN _ NodeCell.bookkeep_bookkeep _ _

theorem syncState_eq (w : World) : w.syncState =
    { w with nh := fun n => if n ∈ w.g.active then (w.nh n).restore else w.nh n } :=
  foldl_setN _ NodeCell.restore_restore _ _

theorem updateNodes_ok {N : ℕ} (dx : Fin N → ℝ) (ns : List NRef) : ∀ (acc : ℕ) (w w' : World),
    updateNodes dx acc ns w = .ok w' →
      w'.g = w.g ∧ w'.fh = w.fh ∧ (∀ n, n ∉ ns → w'.nh n = w.nh n) ∧ ∀ n, NodeCell.SameButState (w.nh n) (w'.nh n) := by
  induction ns with
  | nil =>
    intro acc w w' h
    rw [updateNodes, Out.ok.injEq] at h
    subst h
    exact ⟨rfl, rfl, fun _ _ => rfl, fun n => .refl _⟩
  | cons a ns ih =>
    intro acc w w' h
    rw [updateNodes] at h
    split at h
    · obtain ⟨h1, h2, h3, h4⟩ := ih _ _ _ h
      refine ⟨h1, h2, fun n hn => ?_, fun n => ?_⟩
      · rw [List.mem_cons, not_or] at hn
        rw [h3 n hn.2, setN_nh, Function.update_of_ne hn.1]
      · refine NodeCell.SameButState.trans ?_ (h4 n)
        rw [setN_nh]
        by_cases hna : n = a
        · subst hna; rw [Function.update_self]; exact NodeCell.sameButState_update _ _
        · rw [Function.update_of_ne hna]; exact .refl _
    · simp at h

/-- What `update_nodes` does to distinct nodes. -/
theorem updateNodes_eq {N : ℕ} (dx : Fin N → ℝ) (ns : List NRef) : ∀ (acc : ℕ) (w : World), ns.Nodup →
    acc + total (fun n => (w.nh n).dim) ns ≤ N →
    updateNodes dx acc ns w = .ok ⟨fun n => if n ∈ ns then (w.nh n).update
        (fun k => -dxBlock dx (acc + offset (fun n => (w.nh n).dim) ns n) k) else w.nh n, w.fh, w.g⟩ := by
  induction ns with
  | nil => intro acc w _ _; simp [updateNodes]
  | cons a ns ih =>
    intro acc w hnd hN
    rw [List.nodup_cons] at hnd
    simp only [total, List.map_cons, List.sum_cons] at hN ih
    rw [updateNodes, if_pos (by omega)]
    have hdim : (fun n => ((w.setN a ((w.nh a).update fun k => -dxBlock dx acc k)).nh n).dim) = fun n => (w.nh n).dim := by
      funext n
      rw [setN_nh]
      by_cases h : n = a
      · subst h; rw [Function.update_self]; rfl
      · rw [Function.update_of_ne h]
    rw [ih _ _ hnd.2 (by rw [hdim]; omega), hdim]
    congr 1
    change (⟨_, _, _⟩ : World) = ⟨_, _, _⟩
    congr 1
    funext n
    by_cases h : n = a
    · subst h
      rw [if_neg hnd.1, if_pos List.mem_cons_self, setN_nh, Function.update_self]
      simp [offset]
    · rw [setN_nh, Function.update_of_ne h]
      have e : (n ∈ a :: ns) = (n ∈ ns) := by simp [h]
      simp only [e]
      congr 1
      rw [offset, if_neg (Ne.symm h), Nat.add_assoc]

theorem buildAdjacency_ok {env : Env} {w w' : World} {a : Assembly} (h : w.buildAdjacency env = .ok (w', a)) :
    w' = w.built ∧ (∀ f ∈ w.g.factors, (w.fh f).wellTyped w.nh) := by
  rw [buildAdjacency] at h
  obtain ⟨w1, h1, h⟩ := Out.bind_eq_ok.mp h
  have ht := forAll_evalFull_ok _ _ _ h1
  rw [forAll_evalFull _ _ ht, Out.ok.injEq] at h1
  subst h1
  obtain ⟨A, hA, h⟩ := Out.bind_eq_ok.mp h
  obtain ⟨w2, h2, h⟩ := Out.bind_eq_ok.mp h
  have hwt := forAll_evalWeight_ok _ _ _ h2
  rw [forAll_evalWeight _ _ hwt, Out.ok.injEq] at h2
  subst h2
  obtain ⟨W, hW, h⟩ := Out.bind_eq_ok.mp h
  simp only [Out.pure_eq, Out.ok.injEq, Prod.mk.injEq] at h
  exact ⟨h.1.symm, ht⟩

end World

/-! ### Steps of the solver -/

namespace FGraphSolve

/-- The matrix given to the factorisation: `L_` or, with `useLambda`, `L_` with damped diagonal. -/
noncomputable def damped (useLambda : Bool) (lambda : ℝ) {N : ℕ} (L : Matrix (Fin N) (Fin N) ℝ) : Matrix (Fin N) (Fin N) ℝ :=
  if useLambda then L + lambda • (1 : Matrix (Fin N) (Fin N) ℝ) else L

theorem gaussNewton_ok {env : Env} {ul : Bool} {s s' : FGraphSolve} (h : s.gaussNewton env ul = .ok s') :
    ∃ a dx, s.w.buildAdjacency env = .ok (s.w.built, a) ∧ env.chol a.N (damped ul s.lambda a.L) a.b = some dx ∧
      (∀ f ∈ s.w.g.factors, (s.w.fh f).wellTyped s.w.nh) ∧
      s' = { s with w := s.w.built, sys := ⟨a.N, damped ul s.lambda a.L, a.b, dx⟩, mats := a } := by
  rw [gaussNewton] at h
  obtain ⟨⟨w, a⟩, h1, h⟩ := Out.bind_eq_ok.mp h
  obtain ⟨rfl, ht⟩ := buildAdjacency_ok h1
  have hd : (if ul = true then a.L - diagonal a.L.diag + diagonal (fun n => s.lambda + a.L n n) else a.L) =
      damped ul s.lambda a.L := by
    rw [damped]
    split
    · ext i j
      by_cases hij : i = j
      · subst hij; simp; ring
      · simp [hij]
    · rfl
  simp only [hd] at h
  split at h
  · rename_i dx hdx
    simp only [Out.pure_eq, Out.ok.injEq] at h
    exact ⟨a, dx, h1, hdx, ht, h.symm⟩
  · simp at h

theorem gaussNewton_eq {env : Env} {ul : Bool} {s : FGraphSolve} {a : Assembly} {dx : Fin a.N → ℝ}
    (h1 : s.w.buildAdjacency env = .ok (s.w.built, a)) (h2 : env.chol a.N (damped ul s.lambda a.L) a.b = some dx) :
    s.gaussNewton env ul = .ok { s with w := s.w.built, sys := ⟨a.N, damped ul s.lambda a.L, a.b, dx⟩, mats := a } := by
  have hd : (if ul = true then a.L - diagonal a.L.diag + diagonal (fun n => s.lambda + a.L n n) else a.L) =
      damped ul s.lambda a.L := by
    rw [damped]
    split
    · ext i j
      by_cases hij : i = j
      · subst hij; simp; ring
      · simp [hij]
    · rfl
  rw [gaussNewton, h1, Out.ok_bind]
  simp only [hd, h2, Out.pure_eq]

theorem update_ok {s s' : FGraphSolve} (h : s.update = .ok s') :
    ∃ w, updateNodes s.sys.dx 0 s.w.g.active s.w = .ok w ∧ s' = { s with w := w } := by
  rw [update] at h
  obtain ⟨w, h1, h⟩ := Out.bind_eq_ok.mp h
  simp only [Out.pure_eq, Out.ok.injEq] at h
  exact ⟨w, h1, h.symm⟩

/-- What a trial step of Levenberg-Marquardt leaves behind. -/
theorem trial_ok {env : Env} {s s' : FGraphSolve} {delta : ℝ} (h : s.trial env = .ok (delta, s')) :
    SameFactors s.w s'.w ∧ s'.lambda = s.lambda ∧ s'.tol = s.tol ∧
    (∀ n, n ∉ s.w.g.active → s'.w.nh n = s.w.nh n) ∧
    (∀ n, n ∈ s.w.g.active → NodeCell.SameButState (s.w.nh n).bookkeep (s'.w.nh n)) ∧
    delta = s.w.cost - s'.w.cost ∧
    (∀ f ∈ s.w.g.factors, (s'.w.fh f).chi2 =
      factorChi2 (s.w.fh f).virt.W ((s.w.fh f).virt.res ((s.w.fh f).nbrs.map fun n => (s'.w.nh n).val))) := by
  rw [trial] at h
  obtain ⟨s1, h1, h⟩ := Out.bind_eq_ok.mp h
  obtain ⟨a, dx, hb, hc, ht, rfl⟩ := gaussNewton_ok h1
  obtain ⟨s2, h2, h⟩ := Out.bind_eq_ok.mp h
  obtain ⟨w2, hu, rfl⟩ := update_ok h2
  obtain ⟨⟨new, w3⟩, h3, h⟩ := Out.bind_eq_ok.mp h
  simp only [Out.pure_eq, Out.ok.injEq, Prod.mk.injEq] at h
  obtain ⟨hd, rfl⟩ := h
  obtain ⟨u1, u2, u3, u4⟩ := updateNodes_ok _ _ _ _ _ hu
  simp only [syncAux_eq] at u1 u2 u3 u4
  rw [built_g] at u1
  have ht2 : ∀ f ∈ w2.g.factors, (w2.fh f).wellTyped w2.nh := by
    rw [chi2Eval] at h3
    obtain ⟨w4, h4, -⟩ := Out.bind_eq_ok.mp h3
    exact forAll_evalRes_ok _ _ _ h4
  have hev := chi2Eval_eq w2 ht2
  change w2.chi2Eval = _ at h3
  rw [hev, Out.ok.injEq, Prod.mk.injEq] at h3
  obtain ⟨rfl, rfl⟩ := h3
  have hsf2 : SameFactors s.w w2 := by
    have hb' := sameFactors_built s.w
    refine ⟨u1, fun f => ?_, fun f => ?_, fun f => ?_⟩
    · rw [u2]; exact hb'.virt f
    · rw [u2]; exact hb'.nbrs f
    · rw [u2]; exact hb'.id f
  have hsf3 : SameFactors w2 (mapF (·.resd w2.nh) w2.g.factors w2) :=
    sameFactors_mapF (φ := (·.resd w2.nh)) (fun _ => rfl) (fun _ => rfl) (fun _ => rfl) _ _
  refine ⟨hsf2.trans hsf3, rfl, rfl, fun n hn => ?_, fun n hn => ?_, ?_, fun f hf => ?_⟩
  · change w2.nh n = s.w.nh n
    have := u3 n hn
    rwa [built_nh, built_g, if_neg hn] at this
  · change NodeCell.SameButState _ (w2.nh n)
    have := u4 n
    rwa [built_nh, built_g, if_pos hn] at this
  · rw [← hd, chi2Stored_built, cost_congr_nh hsf3 fun n => rfl]
  · change ((mapF (·.resd w2.nh) w2.g.factors w2).fh f).chi2 = _
    rw [mapF_fh, if_pos (by rw [u1]; exact hf)]
    change factorChi2 (w2.fh f).virt.W ((w2.fh f).virt.res ((w2.fh f).nbrs.map fun n => (w2.nh n).val)) = _
    rw [hsf2.virt, hsf2.nbrs]
    rfl

end FGraphSolve

end Mrob
