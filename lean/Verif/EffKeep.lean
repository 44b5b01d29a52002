import Verif.JointKeep
import Verif.EffApi
/-! # Joint operations that keep all entries of one operand: with closures that have effects, and addresses -/
namespace HT

variable {K V L W R Q : Type} {A : Q → Type} {c : Cfg}

/-- Answers with a property, extended to functions with that property. -/
theorem exists_answers_with (P : (q : Q) → A q → Prop) (d : (q : Q) → A q) (hd : ∀ q, P q (d q))
    {l : List (Reply Q A)} (h : (l.map Sigma.fst).Nodup) (hl : ∀ q a, (⟨q, some a⟩ : Reply Q A) ∈ l → P q a) :
    ∃ f, Answers f l ∧ ∀ q, P q (f q) := by
  classical
  obtain ⟨f, hf⟩ := exists_answers d h
  refine ⟨fun q => if P q (f q) then f q else d q, fun q a hq => ?_, fun q => ?_⟩
  · have h1 := hf q a hq
    have h2 := hl q a hq
    simp only [h1, h2, if_true]
  · by_cases h : P q (f q)
    · simp only [h, if_true]
    · simp only [h, if_false]; exact hd q

section
variable {x : Cross c K L} [BEq K] [BEq L] (laws : CrossLaws x) (reduce : R → R → R) (e : R) {h : (q : Q) → A q}
include laws

theorem ATrie.twmE_keep {ops : TwmOpsM Q A K V L W R} {ops' : TwmOps K V L W R} (ho : ops.Rel h ops')
    (hb : ops'.both.Keeps2) (hl : ops'.left.Keeps) (par : Par) {t : ATrie c K V} {u : ATrie c L W}
    (wt : t.erase.Valid x.hash) (wu : u.erase.Valid x.hash') (solo : Solo x.hash t.erase.visit)
    (cov : Covered x t.erase.visit u.erase.visit)
    {U : ANode c.n K V → Prop} {s : Nat} (heap : Heap U s) (hU : U t.root) :
    PSim h U s (ATrie.twmE x reduce e ops par t u) (.ok ()) (fun _ r _ => r.1.eq t = true) := by
  have sim := ANode.twm_sim x reduce e ho par t.root u.root 0 heap hU
  obtain ⟨r, hr⟩ := Node.twm_keep laws reduce e par hb hl wt solo wu
    (solo.covered laws (Node.WF.distinct laws.right.hash wu) cov) cov
  rw [show Node.twm x reduce e ops' par t.root.erase u.root.erase 0 = _ from hr] at sim
  refine PSim.bindOk sim fun U' s' a _ heap' p => ?_
  cases p
  exact PSim.pure heap' (ANode.eq_refl _)

theorem ATrie.mwtE_keep {ops : MwtOpsM Q A K V L W R} {ops' : MwtOps K V L W R} (ho : ops.Rel h ops')
    (hb : ops'.both.Keeps2) (hr : ops'.right.Keeps) (par : Par) {t : ATrie c K V} {u : ATrie c L W}
    (wt : t.erase.Valid x.hash) (wu : u.erase.Valid x.hash') (solo : Solo x.hash' u.erase.visit)
    (cov : Covered x.flip u.erase.visit t.erase.visit)
    {U : ANode c.n L W → Prop} {s : Nat} (heap : Heap U s) (hU : U u.root) :
    PSim h U s (ATrie.mwtE x reduce e ops par t u) (.ok ()) (fun _ r _ => r.1.eq u = true) := by
  have sim := ANode.mwt_sim x reduce e ho par t.root u.root 0 heap hU
  obtain ⟨r, hr⟩ := Node.mwt_keep laws reduce e par hb hr wt
    (Solo.covered laws.flip solo (Node.WF.distinct laws.left.hash wt) cov) wu solo cov
  rw [show Node.mwt x reduce e ops' par t.root.erase u.root.erase 0 = _ from hr] at sim
  refine PSim.bindOk sim fun U' s' a _ heap' p => ?_
  cases p
  exact PSim.pure heap' (ANode.eq_refl _)
end

section
variable [BEq K] {hash : K → BitVec c.w} (laws : KeyLaws hash) (reduce : R → R → R) (e : R) {h : (q : Q) → A q}
include laws

theorem ATrie.twtE_keepL {ops : TwtOpsM Q A K V R} {ops' : TwtOps K V R} (ho : ops.Rel h ops')
    (hb : ops'.both.KeepsL) (hl : ops'.left.Keeps) (par : Par) {t u : ATrie c K V}
    (wt : t.erase.Valid hash) (wu : u.erase.Valid hash) (solo : Solo hash t.erase.visit)
    (cov : Covered (Cross.same hash) t.erase.visit u.erase.visit)
    {U : ANode c.n K V → Prop} {s : Nat} (heap : Heap U s) (hU : U t.root) (hR : U u.root) :
    PSim h U s (ATrie.twtE reduce e hash ops par t u) (.ok ()) (fun _ r _ => r.1.eq t = true) := by
  have sim := ANode.twt_sim reduce e hash ho par t.root u.root 0 heap hU hR
  obtain ⟨r, hr, hk, _⟩ := Node.twt_keepL laws reduce e par hb hl wt solo wu
    (Solo.covered (CrossLaws.same laws) solo (Node.WF.distinct laws.hash wu) cov) cov
  rw [show Node.twt reduce e hash ops' par t.root.erase u.root.erase 0 = _ from hr] at sim
  refine PSim.bindOk sim fun U' s' a _ heap' p => ?_
  cases p with
  | unchangedLR r => exact PSim.pure heap' (ANode.eq_refl _)
  | unchangedL r => exact PSim.pure heap' (ANode.eq_refl _)
  | _ => exact hk.elim

theorem ATrie.twtE_keepR {ops : TwtOpsM Q A K V R} {ops' : TwtOps K V R} (ho : ops.Rel h ops')
    (hb : ops'.both.KeepsR) (hr : ops'.right.Keeps) (par : Par) {t u : ATrie c K V}
    (wt : t.erase.Valid hash) (wu : u.erase.Valid hash) (solo : Solo hash u.erase.visit)
    (cov : Covered (Cross.same hash) u.erase.visit t.erase.visit)
    {U : ANode c.n K V → Prop} {s : Nat} (heap : Heap U s) (hU : U t.root) (hR : U u.root) :
    PSim h U s (ATrie.twtE reduce e hash ops par t u) (.ok ()) (fun _ r _ => r.1.eq u = true ∨
      r.1.eq t = true ∧ SameLR ops'.both t.erase.visit u.erase.visit) := by
  have sim := ANode.twt_sim reduce e hash ho par t.root u.root 0 heap hU hR
  obtain ⟨r, hr, hk, hk'⟩ := Node.twt_keepR laws reduce e par hb hr wt
    (Solo.covered (CrossLaws.same laws) solo (Node.WF.distinct laws.hash wt) cov) wu solo cov
  rw [show Node.twt reduce e hash ops' par t.root.erase u.root.erase 0 = _ from hr] at sim
  refine PSim.bindOk sim fun U' s' a _ heap' p => ?_
  cases p with
  | unchangedLR r => exact PSim.pure heap' (.inr ⟨ANode.eq_refl _, hk' rfl⟩)
  | unchangedR r => exact PSim.pure heap' (.inl (ANode.eq_refl _))
  | _ => exact hk.elim
end

end HT
