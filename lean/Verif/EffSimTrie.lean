import Verif.EffSimNode
import Verif.ArcTrie
/-! # The operations on tries, with closure calls and addresses, against the plain model -/
namespace HT

variable {K V L W S X R : Type} {Q : Type} {A : Q → Type} {h : (q : Q) → A q} {c : Cfg}

/-- A returned trie in memory and what it is without addresses; the reductions are equal. -/
def OutP (U : ANode c.n K V → Prop) (r : ATrie c K V × R) (r' : Trie c K V × R) : Prop :=
  U r.1.root ∧ r.1.erase = r'.1 ∧ r.2 = r'.2

theorem ATrie.newE_sim {U : ANode c.n K V → Prop} {s : Nat} (heap : Heap U s) (r : R) :
    PSim h U s (do let t' ← Prog.al (ATrie.new c); pure (t', r)) (.ok ((Trie.new c : Trie c K V), r)) OutP :=
  PSim.bindOk (P := fun U' (a : ATrie c K V) b => U' a.root ∧ a.erase = b)
    (PSim.al (Sim.mono (ATrie.new_sim heap) fun _ _ _ _ _ _ _ p => ⟨p.1, p.2.2.2⟩))
    fun _ _ _ _ heap' p => PSim.pure heap' ⟨p.1, p.2, rfl⟩

/-- The end of the operations that may keep a trie. -/
theorem ATrie.endT_sim {U : ANode c.n K V → Prop} {s : Nat} (heap : Heap U s) {t : ATrie c K V} (hU : U t.root)
    {a : TRes (ANode c.n K V) R} {b : TRes (Node c.n K V) R} (p : TP (InN U) a b) :
    PSim h U s
      (match (generalizing := false) a with
        | .unchanged r => pure (t.clone, r)
        | .node m r => pure (⟨m⟩, r)
        | .removed r => do
          let t' ← Prog.al (ATrie.new c)
          pure (t', r) : Prog Q A (ATrie c K V × R))
      (match (generalizing := false) b with
        | .unchanged r => .ok (t.erase, r)
        | .node m r => .ok (⟨m⟩, r)
        | .removed r => .ok (Trie.new c, r)) OutP := by
  cases p with
  | unchanged r => exact PSim.pure heap ⟨hU, rfl, rfl⟩
  | node r hm => exact PSim.pure heap ⟨hm.1, congrArg Trie.mk hm.2, rfl⟩
  | removed r => exact ATrie.newE_sim heap r

/-- The end of the operations that build a trie of another type. -/
theorem ATrie.endX_sim {U : ANode c.n K V → Prop} {s : Nat} (heap : Heap U s)
    {a : XRes (ANode c.n K V) R} {b : XRes (Node c.n K V) R} (p : XP (InN U) a b) :
    PSim h U s
      (match (generalizing := false) a with
        | .node m r => pure (⟨m⟩, r)
        | .removed r => do
          let t' ← Prog.al (ATrie.new c)
          pure (t', r) : Prog Q A (ATrie c K V × R))
      (match (generalizing := false) b with
        | .node m r => .ok (⟨m⟩, r)
        | .removed r => .ok (Trie.new c, r)) OutP := by
  cases p with
  | node r hm => exact PSim.pure heap ⟨hm.1, congrArg Trie.mk hm.2, rfl⟩
  | removed r => exact ATrie.newE_sim heap r

theorem ATrie.transformE_sim (reduce : R → R → R) (e : R)
    {op : MapTransform R (K → V → Prog Q A (MapTransformResult V R))}
    {op' : MapTransform R (K → V → MapTransformResult V R)} (ho : op.Rel h op') (par : Par) (t : ATrie c K V)
    {U : ANode c.n K V → Prop} {s : Nat} (heap : Heap U s) (hU : U t.root) :
    PSim h U s (t.transformE reduce e op par) (t.erase.transform reduce e op' par) OutP :=
  PSim.bind (t.root.transformE_sim reduce e ho par heap hU) fun _ _ _ _ h2 heap' p =>
    ATrie.endT_sim heap' (h2 _ hU) p

theorem ATrie.transmuteE_sim (reduce : R → R → R) (e : R)
    {op : MapTransmute R (K → V → Prog Q A (MapTransmuteResult S X R))}
    {op' : MapTransmute R (K → V → MapTransmuteResult S X R)} (ho : op.Rel h op') (t : ATrie c K V)
    {U : ANode c.n S X → Prop} {s : Nat} (heap : Heap U s) :
    PSim h U s (t.transmuteE reduce e op) (t.erase.transmute reduce e op') OutP :=
  PSim.bind (t.root.transmuteE_sim reduce e ho heap) fun _ _ _ _ _ heap' p => ATrie.endX_sim heap' p

variable (x : Cross c K L) (reduce : R → R → R) (e : R)

theorem ATrie.twmE_sim {ops : TwmOpsM Q A K V L W R} {ops' : TwmOps K V L W R} (ho : ops.Rel h ops') (par : Par)
    (t : ATrie c K V) (u : ATrie c L W) {U : ANode c.n K V → Prop} {s : Nat} (heap : Heap U s) (hU : U t.root) :
    PSim h U s (ATrie.twmE x reduce e ops par t u) (Trie.twm x reduce e ops' par t.erase u.erase) OutP :=
  PSim.bind (ANode.twm_sim x reduce e ho par t.root u.root 0 heap hU) fun _ _ _ _ h2 heap' p =>
    ATrie.endT_sim heap' (h2 _ hU) p

theorem ATrie.mwtE_sim {ops : MwtOpsM Q A K V L W R} {ops' : MwtOps K V L W R} (ho : ops.Rel h ops') (par : Par)
    (t : ATrie c K V) (u : ATrie c L W) {U : ANode c.n L W → Prop} {s : Nat} (heap : Heap U s) (hU : U u.root) :
    PSim h U s (ATrie.mwtE x reduce e ops par t u) (Trie.mwt x reduce e ops' par t.erase u.erase) OutP :=
  PSim.bind (ANode.mwt_sim x reduce e ho par t.root u.root 0 heap hU) fun _ _ _ _ h2 heap' p =>
    ATrie.endT_sim heap' (h2 _ hU) p

theorem ATrie.mwmE_sim {ops : MwmOpsM Q A K V L W S X R} {ops' : MwmOps K V L W S X R} (ho : ops.Rel h ops')
    (t : ATrie c K V) (u : ATrie c L W) {U : ANode c.n S X → Prop} {s : Nat} (heap : Heap U s) :
    PSim h U s (ATrie.mwmE x reduce e ops t u) (Trie.mwm x reduce e ops' t.erase u.erase) OutP :=
  PSim.bind (ANode.mwm_sim x reduce e ho t.root u.root 0 heap) fun _ _ _ _ _ heap' p => ATrie.endX_sim heap' p

theorem ATrie.twtE_sim [BEq K] (hash : K → BitVec c.w) {ops : TwtOpsM Q A K V R} {ops' : TwtOps K V R}
    (ho : ops.Rel h ops') (par : Par) (t u : ATrie c K V) {U : ANode c.n K V → Prop} {s : Nat} (heap : Heap U s)
    (hU : U t.root) (hR : U u.root) :
    PSim h U s (ATrie.twtE reduce e hash ops par t u) (Trie.twt reduce e hash ops' par t.erase u.erase) OutP := by
  refine PSim.bind (ANode.twt_sim reduce e hash ho par t.root u.root 0 heap hU hR) ?_
  intro U' s' a b h2 heap' p
  cases p with
  | unchangedLR r => exact PSim.pure heap' ⟨h2 _ hU, rfl, rfl⟩
  | unchangedL r => exact PSim.pure heap' ⟨h2 _ hU, rfl, rfl⟩
  | unchangedR r => exact PSim.pure heap' ⟨h2 _ hR, rfl, rfl⟩
  | node r hm => exact PSim.pure heap' ⟨hm.1, congrArg Trie.mk hm.2, rfl⟩
  | removed r => exact ATrie.newE_sim heap' r

end HT
