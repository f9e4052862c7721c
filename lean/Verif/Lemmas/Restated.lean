import Verif.Lemmas.Gauge
import Verif.Spec.WorldFrame

/-!
# Histories with the objects seen from another frame
-/

open Matrix

namespace Mrob

open World Spec

namespace Restated

variable {R : NodeVal → NodeVal → Prop} {F : FactorVirt → FactorVirt → Prop} {ops : List GraphOp} {w₀ w₀' : World}

theorem kind (hk : ∀ v v', R v v' → v'.1 = v.1) (h : Restated R F ops w₀ w₀') {n : NRef} (hn : Involved ops w₀ n) :
    (w₀'.nh n).kind = (w₀.nh n).kind := hk _ _ (h.val n hn)

theorem proper (hk : ∀ v v', R v v' → v'.1 = v.1) (hF : ∀ v v', F v v' → v'.kinds = v.kinds) (h : Restated R F ops w₀ w₀')
    (hp : Proper w₀ ops) : Proper w₀' ops where
  noSetMode := hp.noSetMode
  nodup := hp.nodup
  noSchur n hn := by rw [h.mode n (.inl hn)]; exact hp.noSchur n hn
  registered f hf n hn := by
    rw [h.nbrs f hf] at hn
    rw [h.mode n (.inr ⟨f, hf, hn⟩)]
    exact hp.registered f hf n hn
  noLoop f hf := by
    rw [h.nbrs f hf, List.filter_congr (q := fun n => (w₀.nh n).mode ≠ .anchor) fun n hn => by rw [h.mode n (.inr ⟨f, hf, hn⟩)]]
    exact hp.noLoop f hf
  typed f hf := by
    rw [FactorCell.wellTyped, h.nbrs f hf, hF _ _ (h.virt f hf), ← hp.typed f hf]
    exact List.map_congr_left fun n hn => kind hk h (.inr ⟨f, hf, hn⟩)

theorem gauge {S : Sym} (hF : ∀ v v', F v v' → S.Factors v v') (h : Restated S.rel F ops w₀ w₀') (hno : NoSetMode ops)
    (h₀ : w₀.g = emptyGraph) (h₀' : w₀'.g = emptyGraph) (hm : ∀ n ∈ addedNodes ops, S.Moves (w₀.nh n).kind)
    (hok : ∀ f ∈ addedFactors ops, S.ok (w₀.fh f).virt ((w₀.fh f).nbrs.map fun n => (w₀.nh n).val)) :
    World.Gauge S (World.run ops w₀) (World.run ops w₀') := by
  have ha : ∀ w : World, w.g = emptyGraph →
      (World.run ops w).g.active = (addedNodes ops).filter fun n => (w.nh n).mode = .standard := by
    intro w hw
    rw [run_active ops hno, hw]; rfl
  have hf : ∀ w : World, w.g = emptyGraph → (World.run ops w).g.factors = addedFactors ops := by
    intro w hw
    rw [run_factors, hw]; rfl
  refine ⟨?_, ?_, fun f hm => ?_, fun n hn => ?_, fun f hm => ?_, fun n hn => ?_, fun f hm => ?_⟩
  · rw [ha _ h₀, ha _ h₀']
    exact List.filter_congr fun n hn => by rw [h.mode n (.inl hn)]
  · rw [hf _ h₀, hf _ h₀']
  · rw [hf _ h₀] at hm
    rw [(run_fh_static ops w₀ f).2, (run_fh_static ops w₀' f).2, h.nbrs f hm]
  · rw [(run_nh_static ops w₀ n).1, (run_nh_static ops w₀' n).1]
    refine h.val n ?_
    rcases hn with hn | ⟨f, hm, hn⟩
    · rw [ha _ h₀] at hn
      exact .inl (List.mem_of_mem_filter hn)
    · rw [hf _ h₀] at hm
      rw [(run_fh_static ops w₀ f).2] at hn
      exact .inr ⟨f, hm, hn⟩
  · rw [hf _ h₀] at hm
    rw [(run_fh_static ops w₀ f).1, (run_fh_static ops w₀' f).1]
    exact hF _ _ (h.virt f hm)
  · rw [ha _ h₀] at hn
    rw [run_kind]
    exact hm n (List.mem_of_mem_filter hn)
  · rw [hf _ h₀] at hm
    rw [(run_fh_static ops w₀ f).1, (run_fh_static ops w₀ f).2]
    have := hok f hm
    rwa [List.map_congr_left (g := fun n => (w₀.nh n).val) fun n _ => (run_nh_static ops w₀ n).1]

end Restated

end Mrob
