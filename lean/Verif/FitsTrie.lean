import Verif.FitsNode
/-! # What the maps returned by operations point to, whatever the closures do -/
namespace HT

variable {K V L W S X R : Type} {Q : Type} {A : Q → Type} {c : Cfg}

theorem ATrie.newE_fits {U : ANode c.n K V → Prop} {s : Nat} (heap : Heap U s) (r : R) :
    Fits (Q := Q) (A := A) U s (do let t' ← Prog.al (ATrie.new c); pure (t', r)) (fun U' => OutP U') :=
  Fits.bind (P := fun U' (a : ATrie c K V) b => U' a.root ∧ a.erase = b)
    (Fits.al (Sim.mono (ATrie.new_sim heap) fun _ _ _ _ _ _ _ p => ⟨p.1, p.2.2.2⟩))
    fun _ _ _ b _ heap' p => Fits.pure (b := (b, r)) heap' ⟨p.1, p.2, rfl⟩

/-- The end of the operations that may keep a trie. -/
theorem ATrie.endT_fits {U : ANode c.n K V → Prop} {s : Nat} (heap : Heap U s) {t : ATrie c K V} (hU : U t.root)
    {a : TRes (ANode c.n K V) R} {b : TRes (Node c.n K V) R} (p : TP (InN U) a b) :
    Fits U s
      (match (generalizing := false) a with
        | .unchanged r => pure (t.clone, r)
        | .node m r => pure (⟨m⟩, r)
        | .removed r => do
          let t' ← Prog.al (ATrie.new c)
          pure (t', r) : Prog Q A (ATrie c K V × R))
      (fun U' => OutP U') := by
  cases p with
  | unchanged r => exact Fits.pure (b := (t.erase, r)) heap ⟨hU, rfl, rfl⟩
  | node r hm => exact Fits.pure (b := (Trie.mk _, r)) heap ⟨hm.1, congrArg Trie.mk hm.2, rfl⟩
  | removed r => exact ATrie.newE_fits heap r

/-- The end of the operations that build a trie of another type. -/
theorem ATrie.endX_fits {U : ANode c.n K V → Prop} {s : Nat} (heap : Heap U s)
    {a : XRes (ANode c.n K V) R} {b : XRes (Node c.n K V) R} (p : XP (InN U) a b) :
    Fits U s
      (match (generalizing := false) a with
        | .node m r => pure (⟨m⟩, r)
        | .removed r => do
          let t' ← Prog.al (ATrie.new c)
          pure (t', r) : Prog Q A (ATrie c K V × R))
      (fun U' => OutP U') := by
  cases p with
  | node r hm => exact Fits.pure (b := (Trie.mk _, r)) heap ⟨hm.1, congrArg Trie.mk hm.2, rfl⟩
  | removed r => exact ATrie.newE_fits heap r

theorem ATrie.transformE_fits (reduce : R → R → R) (e : R)
    {op : MapTransform R (K → V → Prog Q A (MapTransformResult V R))}
    (ho : op.Still) (par : Par) (t : ATrie c K V)
    {U : ANode c.n K V → Prop} {s : Nat} (heap : Heap U s) (hU : U t.root) :
    Fits U s (t.transformE reduce e op par) (fun U' => OutP U') :=
  Fits.bind (t.root.transformE_fits reduce e ho par heap hU) fun _ _ _ _ h2 heap' p =>
    ATrie.endT_fits heap' (h2 _ hU) p

theorem ATrie.transmuteE_fits (reduce : R → R → R) (e : R)
    {op : MapTransmute R (K → V → Prog Q A (MapTransmuteResult S X R))}
    (ho : op.Still) (t : ATrie c K V)
    {U : ANode c.n S X → Prop} {s : Nat} (heap : Heap U s) :
    Fits U s (t.transmuteE reduce e op) (fun U' => OutP U') :=
  Fits.bind (t.root.transmuteE_fits reduce e ho heap) fun _ _ _ _ _ heap' p => ATrie.endX_fits heap' p

variable (x : Cross c K L) (reduce : R → R → R) (e : R)

theorem ATrie.twmE_fits {ops : TwmOpsM Q A K V L W R} (ho : ops.Still) (par : Par)
    (t : ATrie c K V) (u : ATrie c L W) {U : ANode c.n K V → Prop} {s : Nat} (heap : Heap U s) (hU : U t.root) :
    Fits U s (ATrie.twmE x reduce e ops par t u) (fun U' => OutP U') :=
  Fits.bind (ANode.twm_fits x reduce e ho par t.root u.root 0 heap hU) fun _ _ _ _ h2 heap' p =>
    ATrie.endT_fits heap' (h2 _ hU) p

theorem ATrie.mwtE_fits {ops : MwtOpsM Q A K V L W R} (ho : ops.Still) (par : Par)
    (t : ATrie c K V) (u : ATrie c L W) {U : ANode c.n L W → Prop} {s : Nat} (heap : Heap U s) (hU : U u.root) :
    Fits U s (ATrie.mwtE x reduce e ops par t u) (fun U' => OutP U') :=
  Fits.bind (ANode.mwt_fits x reduce e ho par t.root u.root 0 heap hU) fun _ _ _ _ h2 heap' p =>
    ATrie.endT_fits heap' (h2 _ hU) p

theorem ATrie.mwmE_fits {ops : MwmOpsM Q A K V L W S X R} (ho : ops.Still)
    (t : ATrie c K V) (u : ATrie c L W) {U : ANode c.n S X → Prop} {s : Nat} (heap : Heap U s) :
    Fits U s (ATrie.mwmE x reduce e ops t u) (fun U' => OutP U') :=
  Fits.bind (ANode.mwm_fits x reduce e ho t.root u.root 0 heap) fun _ _ _ _ _ heap' p => ATrie.endX_fits heap' p

theorem ATrie.twtE_fits [BEq K] (hash : K → BitVec c.w) {ops : TwtOpsM Q A K V R}
    (ho : ops.Still) (par : Par) (t u : ATrie c K V) {U : ANode c.n K V → Prop} {s : Nat} (heap : Heap U s)
    (hU : U t.root) (hR : U u.root) :
    Fits U s (ATrie.twtE reduce e hash ops par t u) (fun U' => OutP U') := by
  refine Fits.bind (ANode.twt_fits reduce e hash ho par t.root u.root 0 heap hU hR) ?_
  intro U' s' a b h2 heap' p
  cases p with
  | unchangedLR r => exact Fits.pure (b := (t.erase, r)) heap' ⟨h2 _ hU, rfl, rfl⟩
  | unchangedL r => exact Fits.pure (b := (t.erase, r)) heap' ⟨h2 _ hU, rfl, rfl⟩
  | unchangedR r => exact Fits.pure (b := (u.erase, r)) heap' ⟨h2 _ hR, rfl, rfl⟩
  | node r hm => exact Fits.pure (b := (Trie.mk _, r)) heap' ⟨hm.1, congrArg Trie.mk hm.2, rfl⟩
  | removed r => exact ATrie.newE_fits heap' r

end HT
