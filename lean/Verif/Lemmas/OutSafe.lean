import Verif.Lemmas.PlaneRegTotal
import Verif.Lemmas.Optimizer

/-! # Outcomes which are neither undefined behaviour nor exceptions -/

namespace Mrob

namespace Out

/-- A result with the given property, or NaN when `N` permits it. -/
structure Safe {α : Type} (N : Prop) (x : Out α) (Q : α → Prop) : Prop where
  out : match x with
    | .ok a => Q a
    | .nan => N
    | .ub => False
    | .throw => False

variable {α β γ σ : Type} {N : Prop}

theorem Safe.bind {x : Out α} {f : α → Out β} {Q : α → Prop} {R : β → Prop} (h : x.Safe N Q)
    (hf : ∀ a, Q a → (f a).Safe N R) : (x >>= f).Safe N R := by
  cases x with
  | ok a => exact hf a h.out
  | nan => exact ⟨h.out⟩
  | ub => exact h.out.elim
  | throw => exact h.out.elim

theorem Safe.mono {x : Out α} {Q R : α → Prop} (h : x.Safe N Q) (hq : ∀ a, Q a → R a) : x.Safe N R := by
  cases x with
  | ok a => exact ⟨hq a h.out⟩
  | nan => exact ⟨h.out⟩
  | ub => exact h.out.elim
  | throw => exact h.out.elim

theorem Safe.weaken {x : Out α} {Q : α → Prop} {N' : Prop} (h : x.Safe N Q) (hn : N → N') : x.Safe N' Q := by
  cases x with
  | ok a => exact ⟨h.out⟩
  | nan => exact ⟨hn h.out⟩
  | ub => exact h.out.elim
  | throw => exact h.out.elim

theorem Safe.ok {x : Out α} {a : α} {Q : α → Prop} (h : x = .ok a) (hq : Q a) : x.Safe N Q := by rw [h]; exact ⟨hq⟩

theorem Safe.of {a : α} {Q : α → Prop} (hq : Q a) : (Out.ok a).Safe N Q := ⟨hq⟩

theorem Safe.of_nan {Q : α → Prop} (h : N) : (Out.nan : Out α).Safe N Q := ⟨h⟩

theorem Safe.result {x : Out α} {Q : α → Prop} (h : x.Safe False Q) : ∃ a, x = .ok a ∧ Q a := by
  cases x with
  | ok a => exact ⟨a, rfl, h.out⟩
  | nan => exact h.out.elim
  | ub => exact h.out.elim
  | throw => exact h.out.elim

theorem Safe.cases {x : Out α} {Q : α → Prop} (h : x.Safe N Q) : (∃ a, x = .ok a ∧ Q a) ∨ x = .nan ∧ N := by
  cases x with
  | ok a => exact Or.inl ⟨a, rfl, h.out⟩
  | nan => exact Or.inr ⟨rfl, h.out⟩
  | ub => exact h.out.elim
  | throw => exact h.out.elim

theorem Safe.of_eq {x : Out α} {Q R : α → Prop} (h : x.Safe N Q) (hr : ∀ a, x = .ok a → Q a → R a) : x.Safe N R := by
  cases x with
  | ok a => exact ⟨hr a rfl h.out⟩
  | nan => exact ⟨h.out⟩
  | ub => exact h.out.elim
  | throw => exact h.out.elim

theorem traverse_safe {f : α → Out β} {l : List α} (hf : ∀ a ∈ l, (f a).Safe N fun _ => True) :
    (Out.traverse f l).Safe N fun _ => True := by
  induction l with
  | nil => exact ⟨trivial⟩
  | cons a l ih =>
    rw [Out.traverse]
    exact (hf a List.mem_cons_self).bind fun b _ => (ih fun x hx => hf x (List.mem_cons_of_mem _ hx)).bind fun _ _ => ⟨trivial⟩

theorem traverse_safe₂ {f : α → Out β} {R : γ → α → Prop} {S : γ → β → Prop} (hf : ∀ c a, R c a → (f a).Safe N (S c))
    {cs : List γ} {l : List α} (h : List.Forall₂ R cs l) : (Out.traverse f l).Safe N fun r => List.Forall₂ S cs r := by
  induction h with
  | nil => exact ⟨.nil⟩
  | cons h _ ih =>
    rw [Out.traverse]
    exact (hf _ _ h).bind fun b hb => ih.bind fun bs hbs => ⟨List.Forall₂.cons hb hbs⟩

theorem mapAccum_safe {f : α → σ → Out (β × σ)} {J : σ → Prop} {l : List α}
    (hf : ∀ a ∈ l, ∀ s, J s → (f a s).Safe N fun r => J r.2) : ∀ {s : σ}, J s → (Out.mapAccum f l s).Safe N fun r => J r.2 := by
  induction l with
  | nil => intro s hs; exact ⟨hs⟩
  | cons a l ih =>
    intro s hs
    rw [Out.mapAccum]
    exact (hf a List.mem_cons_self s hs).bind fun r hr =>
      (ih (fun x hx => hf x (List.mem_cons_of_mem _ hx)) hr).bind fun _ hr' => ⟨hr'⟩

end Out

/-! ### The loops of `Optimizer` -/

namespace OptDense

variable {σ : Type} {P : DenseProblem σ} {I : σ → Prop} {K : LinSys → Prop}

theorem error_safe (he : ∀ o, I o → (P.error o).Safe True fun r => I r.2) {s : OptDense σ} (hs : I s.obj) :
    (s.error P).Safe True fun r => I r.2.obj ∧ r.2.sys = s.sys := by
  rw [error]
  exact (he _ hs).bind fun r hr => ⟨⟨hr, rfl⟩⟩

theorem finish_safe (he : ∀ o, I o → (P.error o).Safe True fun r => I r.2) (hr : ∀ o, I o → (P.restore o).Safe True I)
    {s : OptDense σ} (hs : I s.obj) (hk : K s.sys) (b : Bool) (k : ℕ) :
    (s.finish P b k).Safe True fun r => I r.2.obj ∧ K r.2.sys := by
  rw [finish]
  refine Out.Safe.bind (Q := I) ?_ fun o ho => (error_safe (s := { s with obj := o }) he ho).bind fun r hr => ⟨⟨hr.1, ?_⟩⟩
  · cases b
    · exact hr _ hs
    · exact ⟨hs⟩
  · change K r.2.sys
    rw [hr.2]
    exact hk

theorem nrLoop_safe (he : ∀ o, I o → (P.error o).Safe True fun r => I r.2)
    (hstep : ∀ (s : OptDense σ) b, I s.obj → (s.oneIteration P b).Safe True fun s' => I s'.obj ∧ K s'.sys) {maxIters : ℕ} :
    ∀ (k iters : ℕ) (prev : ℝ) (s : OptDense σ), maxIters - iters = k → I s.obj →
      (nrLoop P maxIters iters prev s).Safe True fun r => I r.2.obj ∧ K r.2.sys := by
  intro k
  induction k using Nat.strong_induction_on with
  | _ k ih =>
    intro iters prev s hk hs
    rw [nrLoop, nrStep]
    refine Out.Safe.bind (Q := fun r => I r.2.obj ∧ K r.2.sys) ?_ fun r hr => ?_
    · exact (hstep s false hs).bind fun s' hs' => (error_safe he hs'.1).mono fun r hr => ⟨hr.1, by rw [hr.2]; exact hs'.2⟩
    · dsimp only
      split_ifs with hc
      · exact ih _ (by omega) _ _ _ rfl hr.1
      · exact ⟨hr⟩

theorem lmLoop_safe (he : ∀ o, I o → (P.error o).Safe True fun r => I r.2) (hr : ∀ o, I o → (P.restore o).Safe True I)
    (hb : ∀ o, I o → (P.bookkeep o).Safe True I)
    (hstep : ∀ (s : OptDense σ) b, I s.obj → (s.oneIteration P b).Safe True fun s' => I s'.obj ∧ K s'.sys) {maxIters : ℕ} :
    ∀ (k iters : ℕ) (prev : ℝ) (s : OptDense σ), maxIters - iters = k → I s.obj →
      (lmLoop P maxIters iters prev s).Safe True fun r => I r.2.obj ∧ K r.2.sys := by
  intro k
  induction k using Nat.strong_induction_on with
  | _ k ih =>
    intro iters prev s hk hs
    rw [lmLoop, lmStep]
    refine Out.Safe.bind (Q := fun r => I r.2.obj ∧ K r.2.sys) ?_ fun r hr' => ?_
    · exact (hb _ hs).bind fun o ho => (hstep { s with obj := o } true ho).bind fun s' hs' =>
        (error_safe he hs'.1).mono fun r hr => ⟨hr.1, by rw [hr.2]; exact hs'.2⟩
    · dsimp only
      split_ifs with h1 h2 h3 h4
      · rw [reject]
        refine Out.Safe.bind (Q := fun x : OptDense σ => I x.obj ∧ K x.sys) ((hr _ hr'.1).bind fun o ho => ⟨⟨ho, hr'.2⟩⟩)
          fun x hx => ?_
        exact ih _ (by omega) _ _ _ rfl hx.1
      · rw [reject]
        refine Out.Safe.bind (Q := fun x : OptDense σ => I x.obj ∧ K x.sys) ((hr _ hr'.1).bind fun o ho => ⟨⟨ho, hr'.2⟩⟩)
          fun x hx => ?_
        exact finish_safe he hr hx.1 hx.2 _ _
      · exact ⟨hr'⟩
      · exact ih _ (by omega) _ _ _ rfl hr'.1
      · exact finish_safe (s := r.2.adapt (prev - r.1)) he hr hr'.1 hr'.2 _ _

theorem solve_safe (he : ∀ o, I o → (P.error o).Safe True fun r => I r.2) (hr : ∀ o, I o → (P.restore o).Safe True I)
    (hb : ∀ o, I o → (P.bookkeep o).Safe True I)
    (hstep : ∀ (s : OptDense σ) b, I s.obj → (s.oneIteration P b).Safe True fun s' => I s'.obj ∧ K s'.sys)
    (m : OptMethod) (maxIters : ℕ) (lambda : ℝ) {s : OptDense σ} (hs : I s.obj) :
    (s.solve P m maxIters lambda).Safe True fun r => I r.2.obj ∧ K r.2.sys := by
  have lm : ∀ s : OptDense σ, I s.obj → (s.levenbergMarquardt P).Safe True fun r => I r.2.obj ∧ K r.2.sys := fun s hs => by
    rw [levenbergMarquardt]
    exact (error_safe he hs).bind fun r h => lmLoop_safe he hr hb hstep _ _ _ _ rfl h.1
  have nr : ∀ s : OptDense σ, I s.obj → (s.newtonRaphson P).Safe True fun r => I r.2.obj ∧ K r.2.sys := fun s hs => by
    rw [newtonRaphson]
    exact (error_safe he hs).bind fun r h => nrLoop_safe he hstep _ _ _ _ rfl h.1
  cases m with
  | newtonRaphson => exact nr _ hs
  | lmSpher => exact lm _ hs
  | lmEllip => exact lm _ hs

end OptDense

end Mrob
