import Verif.JointLoop
import Verif.JointListLemmas
/-! # Joint operations of a branch node with a list or single node, and of two branch nodes -/
namespace HT

variable {K V L W S X R : Type} [BEq K] [BEq L] [BEq S] {c : Cfg}
variable {x : Cross c K L}

/-! ### One operand alone -/

section
variable {s : Sem (K × V) (L × W) (S × X) R} {hashS : S → BitVec c.w}

theorem AloneX.keymapL (k : Keyed x s hashS) {op : MapTransmute R (K → V → MapTransmuteResult S X R)}
    (h : AloneX s Case.left op) : KeyMap x.hash hashS op.call where
  hash := by
    intro a v a' v' r he
    have := h.out (a, v)
    simp only [he] at this
    exact k.hash (.left (a, v)) _ trivial this
  inj := by
    intro a v a' v' r b w b' w' r' he he' hk
    have h1 := h.out (a, v)
    have h2 := h.out (b, w)
    simp only [he] at h1
    simp only [he'] at h2
    rcases k.inj (.left (a, v)) (.left (b, w)) _ _ trivial trivial h1 h2 hk with ⟨_, _, e1, e2, h⟩ | ⟨_, _, e1, e2, h⟩ |
      ⟨_, _, e1, e2, h⟩ | ⟨_, _, e1, e2, h⟩
    · injection e1 with e1; injection e2 with e2; subst e1; subst e2; exact h
    · simp [Case.rkey?] at e1
    · simp [Case.rkey?] at e2
    · simp [Case.rkey?] at e2

theorem AloneX.keymapR (k : Keyed x s hashS) {op : MapTransmute R (L → W → MapTransmuteResult S X R)}
    (h : AloneX s Case.right op) : KeyMap x.hash' hashS op.call where
  hash := by
    intro a v a' v' r he
    have := h.out (a, v)
    simp only [he] at this
    exact k.hash (.right (a, v)) _ trivial this
  inj := by
    intro a v a' v' r b w b' w' r' he he' hk
    have h1 := h.out (a, v)
    have h2 := h.out (b, w)
    simp only [he] at h1
    simp only [he'] at h2
    rcases k.inj (.right (a, v)) (.right (b, w)) _ _ trivial trivial h1 h2 hk with ⟨_, _, e1, e2, h⟩ | ⟨_, _, e1, e2, h⟩ |
      ⟨_, _, e1, e2, h⟩ | ⟨_, _, e1, e2, h⟩
    · simp [Case.lkey?] at e1
    · injection e1 with e1; injection e2 with e2; subst e1; subst e2; exact h
    · simp [Case.lkey?] at e1
    · simp [Case.lkey?] at e1

end

theorem AloneT.node {K' V' : Type} [BEq K'] {hash : K' → BitVec c.w}
    {s : Sem (K × V) (L × W) (K' × V') R} {f : K' × V' → Case (K × V) (L × W)}
    {op : MapTransform R (K' → V' → MapTransformResult V' R)} (h : AloneT s f op) (hh : HashOk hash)
    (par : Par) {d : Nat} {m : Node c.n K' V'} (wf : m.WF hash c.levels d) :
    ∃ res, m.transform s.reduce s.e op par = .ok res ∧
      Good s hash d (m.visit ≠ []) (m.visit.map f) (res.get m) res.red := by
  obtain ⟨res, h1, g⟩ := Node.transform_spec op hh s.reduce s.e par wf
  refine ⟨res, h1, ?_, g.wf, g.ne⟩
  rw [g.entries]
  exact h.real m.visit (fun hy hn => g.red (s.cm hy).toMon hn)

theorem AloneX.node {K' V' : Type} [BEq K'] {hash : K' → BitVec c.w} {hashS : S → BitVec c.w}
    {s : Sem (K × V) (L × W) (S × X) R} {f : K' × V' → Case (K × V) (L × W)}
    {op : MapTransmute R (K' → V' → MapTransmuteResult S X R)} (h : AloneX s f op)
    (km : KeyMap hash hashS op.call) {d : Nat} {m : Node c.n K' V'} (wf : m.WF hash c.levels d) :
    ∃ res, m.transmute s.reduce s.e op = .ok res ∧
      Good s hashS d (m.visit ≠ []) (m.visit.map f) res.get res.red := by
  obtain ⟨res, h1, g⟩ := Node.transmute_spec op km s.reduce s.e wf
  refine ⟨res, h1, ?_, g.wf, g.ne⟩
  rw [g.entries]
  exact h.real m.visit (fun hy hn => g.red (s.cm hy).toMon hn)

/-! ### The tables for different hashes -/

section
omit [BEq K] [BEq L] [BEq S]

theorem bind_some_ok {N : Type} {a : Res N} {o : Option N}
    (h : (do
      let m ← a
      Res.ok (some m)) = .ok o) : ∃ m, a = .ok m ∧ o = some m := by
  cases a with
  | ok m => exact ⟨m, rfl, by simpa using h.symm⟩
  | panic p => simp [Bind.bind, Res.bind] at h
  | diverge => simp [Bind.bind, Res.bind] at h

theorem twmApart_eq (reduce : R → R → R) (this : LNext K V) {h1 h2 : BitVec c.w} {d : Nat}
    (hd : d * c.b < c.w) (left : TRes (LNext K V) R) (right : XRes (LNext K V) R)
    {o : Option (Node c.n K V)}
    (hj : joinN (left.get this) right.get (fun l r => liftN l (flagAt h1 d) r (flagAt h2 d)) = .ok o) :
    ∃ res, twmApart reduce this h1 h2 d left right = .ok res ∧ res.get this.toNode = o ∧
      res.red = reduce left.red right.red := by
  simp only [twmApart, flagOf, Flag.newAtDepth_eq _ hd, Res.ok_bind, Res.unwrap_some]
  cases left <;> cases right <;> simp only [TRes.get, XRes.get, joinN, Res.ok.injEq] at hj
  all_goals first
    | (subst hj; exact ⟨_, rfl, rfl, rfl⟩)
    | (obtain ⟨m, hm, rfl⟩ := bind_some_ok hj
       simp only [hm, Res.ok_bind]
       exact ⟨_, rfl, rfl, rfl⟩)

theorem mwtApart_eq (reduce : R → R → R) (right : LNext K V) {h1 h2 : BitVec c.w} {d : Nat}
    (hd : d * c.b < c.w) (left : XRes (LNext K V) R) (r : TRes (LNext K V) R)
    {o : Option (Node c.n K V)}
    (hj : joinN left.get (r.get right) (fun l r => liftN l (flagAt h1 d) r (flagAt h2 d)) = .ok o) :
    ∃ res, mwtApart reduce right h1 h2 d left r = .ok res ∧ res.get right.toNode = o ∧
      res.red = reduce left.red r.red := by
  simp only [mwtApart, flagOf, Flag.newAtDepth_eq _ hd, Res.ok_bind, Res.unwrap_some]
  cases left <;> cases r <;> simp only [TRes.get, XRes.get, joinN, Res.ok.injEq] at hj
  all_goals first
    | (subst hj; exact ⟨_, rfl, rfl, rfl⟩)
    | (obtain ⟨m, hm, rfl⟩ := bind_some_ok hj
       simp only [hm, Res.ok_bind]
       exact ⟨_, rfl, rfl, rfl⟩)

theorem mwmApart_eq (reduce : R → R → R) {h1 h2 : BitVec c.w} {d : Nat}
    (hd : d * c.b < c.w) (left right : XRes (LNext S X) R)
    {o : Option (Node c.n S X)}
    (hj : joinN left.get right.get (fun l r => liftN l (flagAt h1 d) r (flagAt h2 d)) = .ok o) :
    ∃ res, mwmApart reduce h1 h2 d left right = .ok res ∧ res.get = o ∧
      res.red = reduce left.red right.red := by
  simp only [mwmApart, flagOf, Flag.newAtDepth_eq _ hd, Res.ok_bind, Res.unwrap_some]
  cases left <;> cases right <;> simp only [XRes.get, joinN, Res.ok.injEq] at hj
  all_goals first
    | (subst hj; exact ⟨_, rfl, rfl, rfl⟩)
    | (obtain ⟨m, hm, rfl⟩ := bind_some_ok hj
       simp only [hm, Res.ok_bind]
       exact ⟨_, rfl, rfl, rfl⟩)

/-- The nodes a joint result may stand for. -/
def JRes.gives {N : Type} (left right : N) : JRes N R → List (Option N)
  | .unchangedLR _ => [some left, some right]
  | .unchangedL _ => [some left]
  | .unchangedR _ => [some right]
  | .node m _ => [some m]
  | .removed _ => [none]

/-- The reduction of a joint result. -/
def JRes.red {N : Type} : JRes N R → R
  | .unchangedLR r => r
  | .unchangedL r => r
  | .unchangedR r => r
  | .node _ r => r
  | .removed r => r

theorem twtApart_eq (reduce : R → R → R) (this right : LNext K V) {h1 h2 : BitVec c.w} {d : Nat}
    (hd : d * c.b < c.w) (left r : TRes (LNext K V) R)
    {o : Option (Node c.n K V)}
    (hj : joinN (left.get this) (r.get right) (fun l r => liftN l (flagAt h1 d) r (flagAt h2 d)) = .ok o) :
    ∃ res, twtApart reduce this right h1 h2 d left r = .ok res ∧
      res.gives this.toNode right.toNode = [o] ∧ res.red = reduce left.red r.red := by
  simp only [twtApart, flagOf, Flag.newAtDepth_eq _ hd, Res.ok_bind, Res.unwrap_some]
  cases left <;> cases r <;> simp only [TRes.get, joinN, Res.ok.injEq] at hj
  all_goals first
    | (subst hj; exact ⟨_, rfl, rfl, rfl⟩)
    | (obtain ⟨m, hm, rfl⟩ := bind_some_ok hj
       simp only [hm, Res.ok_bind]
       exact ⟨_, rfl, rfl, rfl⟩)

/-! ### The ends of the loops -/

theorem TRes.itemOpt_some {n : Nat} (keep : Bool) (m : Node n K V) (res : TRes (Node n K V) R) :
    ∃ it, res.itemOpt keep (some m) = .ok it ∧ it.node? = res.get m ∧ it.red? = some res.red ∧
      (it.kl = true → it.node? = some m) := by
  cases res with
  | unchanged r => exact ⟨_, rfl, rfl, rfl, fun _ => rfl⟩
  | node m' r => exact ⟨_, rfl, rfl, rfl, by simp [Item.kl]⟩
  | removed r => exact ⟨_, rfl, rfl, rfl, by simp [Item.kl]⟩

theorem XRes.itemOpt_toT {n : Nat} (keep : Bool) (o : Option (Node n K V)) (res : XRes (Node n K V) R) :
    ∃ it, res.toT.itemOpt keep o = .ok it ∧ it.node? = res.get ∧ it.red? = some res.red ∧
      it.kl = false := by
  cases res with
  | node m' r => exact ⟨_, rfl, rfl, rfl, rfl⟩
  | removed r => exact ⟨_, rfl, rfl, rfl, rfl⟩

end

section
variable {s : Sem (K × V) (L × W) (S × X) R} {hashS : S → BitVec c.w}

omit [BEq K] [BEq L] in
/-- The result when no slot changed is the old node. -/
theorem loop_keep {d : Nat} {it : Nat → Item c.n S X R}
    {acc : Acc c.n S X R} (G : Acc.Gathered s.reduce s.e it acc)
    {csi : Nat → List (Case (K × V) (L × W))} (h : ∀ i, i < c.n → ItemGood s hashS d (csi i) (it i))
    {m0 : Node c.n S X} (wf : m0.WF hashS c.levels d) {sl : Nat → List (S × X)}
    (hsl : (List.range c.n).flatMap sl = m0.visit)
    (hs : ∀ i, i < c.n → vis (it i).node? = sl i) :
    Good s hashS d (m0.visit ≠ []) ((List.range c.n).flatMap csi) (some m0) acc.red := by
  refine ⟨?_, ?_, ?_⟩
  · rw [vis_some, ← hsl]
    have := loop_real G h
    rwa [flatMap_congr' _ _ _ (fun i hi => hs i (List.mem_range.1 hi))] at this
  · intro m hm; injection hm with hm; subst hm; exact wf
  · intro hN m hm; injection hm with hm; subst hm; exact hN

theorem TRes.finish_spec (k : Keyed x s hashS) {d : Nat} (hd : d < c.levels) {it : Nat → Item c.n S X R}
    {acc : Acc c.n S X R} (G : Acc.Gathered s.reduce s.e it acc)
    {csi : Nat → List (Case (K × V) (L × W))} (h : ∀ i, i < c.n → ItemGood s hashS d (csi i) (it i))
    (hc : ∀ i, i < c.n → ∀ p ∈ csi i, Matched x p ∧ chunk c (x.caseHash p) d = i)
    {m0 : Node c.n S X} (wf : m0.WF hashS c.levels d) {sl : Nat → List (S × X)}
    (hsl : (List.range c.n).flatMap sl = m0.visit)
    (hs : ∀ i, i < c.n → (it i).kl = true → vis (it i).node? = sl i) :
    ∃ res, TRes.finish acc = .ok res ∧
      Good s hashS d (m0.visit ≠ []) ((List.range c.n).flatMap csi) (res.get m0) res.red := by
  unfold TRes.finish
  cases hul : acc.ul with
  | true =>
    refine ⟨.unchanged acc.red, by simp, ?_⟩
    refine loop_keep G h wf hsl (fun i hi => hs i hi ?_)
    have := G.ul
    rw [hul] at this
    exact List.all_eq_true.1 this.symm i (List.mem_range.2 hi)
  | false =>
    obtain ⟨o, ho, g⟩ := loop_pack k hd G h hc
    simp only [Bool.false_eq_true, if_false, ho, Res.ok_bind]
    refine ⟨_, rfl, ?_⟩
    have : (TRes.ofOption o acc.red).get m0 = o ∧ (TRes.ofOption o acc.red).red = acc.red := by
      cases o <;> exact ⟨rfl, rfl⟩
    rw [this.1, this.2]
    exact g.mono (fun _ => trivial)

theorem XRes.finish_spec (k : Keyed x s hashS) {d : Nat} (hd : d < c.levels) {it : Nat → Item c.n S X R}
    {acc : Acc c.n S X R} (G : Acc.Gathered s.reduce s.e it acc)
    {csi : Nat → List (Case (K × V) (L × W))} (h : ∀ i, i < c.n → ItemGood s hashS d (csi i) (it i))
    (hc : ∀ i, i < c.n → ∀ p ∈ csi i, Matched x p ∧ chunk c (x.caseHash p) d = i) :
    ∃ res, XRes.finish acc = .ok res ∧
      Good s hashS d True ((List.range c.n).flatMap csi) res.get res.red := by
  unfold XRes.finish
  obtain ⟨o, ho, g⟩ := loop_pack k hd G h hc
  simp only [ho, Res.ok_bind]
  refine ⟨_, rfl, ?_⟩
  have : (XRes.ofOption o acc.red).get = o ∧ (XRes.ofOption o acc.red).red = acc.red := by
    cases o <;> exact ⟨rfl, rfl⟩
  rw [this.1, this.2]
  exact g

end
end HT
