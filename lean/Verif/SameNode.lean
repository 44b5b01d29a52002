import Verif.SameList
import Verif.TwtRed
import Verif.JointLoop
import Verif.NatBase
import Verif.ArcTransform
/-!
# Which comparisons of keys the joint functions depend on: nodes and maps
-/
namespace HT

variable {K V L W S X R : Type} {c : Cfg}

/-- Every collision list of a node holds keys of one hash; the keys of the node are among the given ones. -/
inductive Node.Grouped (hash : K → BitVec c.w) (P : K → Prop) : Node c.n K V → Prop
  | S {s : SNode K V} : P s.key → Node.Grouped hash P (.S s)
  | L {l : LNode K V} : l.Grouped hash P → Node.Grouped hash P (.L l)
  | C {bits : BitVec c.n} {values : List (Node c.n K V)} {extra : Nat} :
      (∀ m ∈ values, Node.Grouped hash P m) → Node.Grouped hash P (.C bits values extra)

theorem Node.Grouped.ofS {hash : K → BitVec c.w} {P : K → Prop} {s : SNode K V}
    (h : Node.Grouped hash P (.S s : Node c.n K V)) : P s.key := by cases h; assumption
theorem Node.Grouped.ofL {hash : K → BitVec c.w} {P : K → Prop} {l : LNode K V}
    (h : Node.Grouped hash P (.L l : Node c.n K V)) : l.Grouped hash P := by cases h; assumption
theorem Node.Grouped.ofC {hash : K → BitVec c.w} {P : K → Prop} {bits : BitVec c.n} {values : List (Node c.n K V)}
    {extra : Nat} (h : Node.Grouped hash P (.C bits values extra)) : ∀ m ∈ values, Node.Grouped hash P m := by
  cases h; assumption

/-- The invariant of maps, forgetting all but the groups. -/
theorem Node.WF.grouped [BEq K] {hash : K → BitVec c.w} {mx d : Nat} {m : Node c.n K V} (h : m.WF hash mx d)
    {P : K → Prop} (hP : ∀ e ∈ m.visit, P e.1) : m.Grouped hash P := by
  induction h with
  | S d s => exact .S (hP (s.key, s.value) (by simp [Node.visit, SNode.visit]))
  | L d l h =>
    refine .L ⟨?_, fun e he => ⟨hP e he, h.hash e he⟩⟩
    cases l with
    | nextS k v s z => exact hP (k, v) (by simp [Node.visit, LNode.visit])
    | nextL k v l z => exact hP (k, v) (by simp [Node.visit, LNode.visit])
  | C d bits values extra hd ok sz ne at_ sub ih =>
    refine .C fun m hm => ?_
    have hm' : m ∈ (List.range c.n).filterMap (Bia.mk bits values extra).slot := by
      rw [← Bia.values_eq _ ok]; exact hm
    obtain ⟨i, _, hi⟩ := List.mem_filterMap.1 hm'
    refine ih i m hi fun e he => hP e ?_
    rw [Node.visit, Node.visitAll_eq]
    exact List.mem_flatMap.2 ⟨m, hm, he⟩

/-- `Node.fold` on a branch node. -/
theorem Node.fold_C {n : Nat} {β : Type} {fS : SNode K V → Nat → β} {fL : LNode K V → Nat → β}
    {fC : BitVec n → List (Node n K V × β) → Nat → Nat → β} (bits : BitVec n) (values : List (Node n K V))
    (extra d : Nat) : Node.fold fS fL fC (.C bits values extra) d =
      fC bits (values.map fun m => (m, Node.fold fS fL fC m (d + 1))) extra d := by
  rw [Node.fold, Node.foldAll_eq]

theorem map_pair_fst {α β : Type} (f : α → β) (l : List α) : (l.map fun a => (a, f a)).map Prod.fst = l := by
  simp only [List.map_map, Function.comp_def, List.map_id']

/-- Loops over a branch node whose children give the same. -/
theorem flatLoop_same {ρ : Type} {reduce : R → R → R} {e : R} {h h' : BitVec c.w} (hh : h' = h) {depth : Nat}
    {bits : BitVec c.n} {values : List (Node c.n K V)} {extra : Nat} {F G : Node c.n K V → Res ρ}
    (hFG : ∀ m ∈ values, G m = F m) {elsewhere : Node c.n K V → Res ρ} {alone : ρ}
    {item : Option (Node c.n K V) → ρ → Res (Item c.n S X R)} :
    flatLoop reduce e h' depth ⟨bits, values.map fun m => (m, G m), extra⟩ elsewhere alone item =
      flatLoop reduce e h depth ⟨bits, values.map fun m => (m, F m), extra⟩ elsewhere alone item := by
  subst hh
  rw [List.map_congr_left (g := fun m => (m, F m)) fun m hm => congrArg (m, ·) (hFG m hm)]

theorem bothLoop_same {ρ : Type} {reduce : R → R → R} {e : R} {par : Par} {n : Nat}
    {bits : BitVec n} {values : List (Node n K V)} {extra : Nat} {right : Bia n (Node n L W)}
    {F G : Node n K V → Node n L W → Res ρ} (hFG : ∀ m ∈ values, ∀ r ∈ right.values, G m r = F m r)
    {onlyL : Node n K V → Res ρ} {onlyR : Node n L W → Res ρ}
    {item : Option (Node n K V) → Option (Node n L W) → ρ → Res (Item n S X R)} :
    bothLoop reduce e par ⟨bits, values.map fun m => (m, G m), extra⟩ right onlyL onlyR item =
      bothLoop reduce e par ⟨bits, values.map fun m => (m, F m), extra⟩ right onlyL onlyR item := by
  unfold bothLoop
  congr 1
  funext i
  rw [Bia.atBitIndex_map, Bia.atBitIndex_map]
  cases ha : (Bia.mk bits values extra).atBitIndex i with
  | panic p => rfl
  | diverge => rfl
  | ok child =>
    cases child with
    | error _ => rfl
    | ok m =>
      cases hb : right.atBitIndex i with
      | panic p => rfl
      | diverge => rfl
      | ok rchild =>
        cases rchild with
        | error _ => rfl
        | ok r =>
          show (do let res ← G m r; item (some m) (some r) res) = (do let res ← F m r; item (some m) (some r) res)
          rw [hFG m (Bia.atBitIndex_mem ha) r (Bia.atBitIndex_mem hb)]

variable {x y : Cross c K L} {P : K → Prop} {Q : L → Prop} (reduce : R → R → R) (e : R)

section
variable (ops : TwmOps K V L W R) (par : Par)

theorem Node.twmS_same (h : x.Same y P Q) {r : SNode L W} (hr : Q r.key) (m : Node c.n K V) :
    m.Grouped x.hash P → ∀ d, m.twmS y reduce e ops par r d = m.twmS x reduce e ops par r d := by
  induction m using Node.ind with
  | hS s =>
    intro hs d; exact SNode.twm_same reduce ops h hs.ofS hr d
  | hL l =>
    intro hl d; exact LNode.twmS_same reduce ops h hl.ofL hr d
  | hC bits values extra ih =>
    intro hc d
    refine (Node.fold_C _ _ _ _).trans (Eq.trans ?_ (Node.fold_C _ _ _ _).symm)
    exact congrArg (· >>= TRes.finish) (flatLoop_same (h.hash' _ hr) fun m hm => ih m hm (hc.ofC m hm) (d + 1))

theorem Node.twmL_same (h : x.Same y P Q) {r : LNode L W} (hr : r.Grouped x.hash' Q) (m : Node c.n K V) :
    m.Grouped x.hash P → ∀ d, m.twmL y reduce e ops par r d = m.twmL x reduce e ops par r d := by
  induction m using Node.ind with
  | hS s =>
    intro hs d; exact LNode.mwtS_same reduce ops.flip h.flip hr hs.ofS d
  | hL l =>
    intro hl d; exact LNode.twmL_same reduce ops h hl.ofL hr d
  | hC bits values extra ih =>
    intro hc d
    refine (Node.fold_C _ _ _ _).trans (Eq.trans ?_ (Node.fold_C _ _ _ _).symm)
    exact congrArg (· >>= TRes.finish) (flatLoop_same (h.hash' _ hr.key) fun m hm => ih m hm (hc.ofC m hm) (d + 1))

end

section
variable (ops : MwtOps K V L W R)

theorem Node.mwtS_same (h : x.Same y P Q) {r : SNode L W} (hr : Q r.key) (m : Node c.n K V) :
    m.Grouped x.hash P → ∀ d, m.mwtS y reduce e ops r d = m.mwtS x reduce e ops r d := by
  induction m using Node.ind with
  | hS s =>
    intro hs d; exact SNode.mwt_same reduce ops h hs.ofS hr d
  | hL l =>
    intro hl d; exact LNode.mwtS_same reduce ops h hl.ofL hr d
  | hC bits values extra ih =>
    intro hc d
    refine (Node.fold_C _ _ _ _).trans (Eq.trans ?_ (Node.fold_C _ _ _ _).symm)
    exact congrArg (· >>= TRes.finish) (flatLoop_same (h.hash' _ hr) fun m hm => ih m hm (hc.ofC m hm) (d + 1))

theorem Node.mwtL_same (h : x.Same y P Q) {r : LNode L W} (hr : r.Grouped x.hash' Q) (m : Node c.n K V) :
    m.Grouped x.hash P → ∀ d, m.mwtL y reduce e ops r d = m.mwtL x reduce e ops r d := by
  induction m using Node.ind with
  | hS s =>
    intro hs d; exact LNode.twmS_same reduce ops.flip h.flip hr hs.ofS d
  | hL l =>
    intro hl d; exact LNode.twmL_same reduce ops.flip h.flip hr hl.ofL d
  | hC bits values extra ih =>
    intro hc d
    refine (Node.fold_C _ _ _ _).trans (Eq.trans ?_ (Node.fold_C _ _ _ _).symm)
    exact congrArg (· >>= TRes.finish) (flatLoop_same (h.hash' _ hr.key) fun m hm => ih m hm (hc.ofC m hm) (d + 1))

end

section
variable (ops : TwmOps K V L W R) (par : Par)

/-- `Node.twm` on a branch node. -/
theorem Node.twm_C (x : Cross c K L) (bits : BitVec c.n) (values : List (Node c.n K V)) (extra : Nat)
    (r : Node c.n L W) (d : Nat) : (Node.C bits values extra).twm x reduce e ops par r d =
      twmC x reduce e ops par bits (values.map fun m => (m, fun r => m.twm x reduce e ops par r (d + 1)))
        extra d r :=
  congrFun (Node.fold_C bits values extra d) r

theorem Node.twm_same (h : x.Same y P Q) (m : Node c.n K V) : m.Grouped x.hash P → ∀ (r : Node c.n L W),
    r.Grouped x.hash' Q → ∀ d, m.twm y reduce e ops par r d = m.twm x reduce e ops par r d := by
  induction m using Node.ind with
  | hS s =>
    intro hs r hr d
    cases r with
    | S r => exact SNode.twm_same reduce ops h hs.ofS hr.ofS d
    | L r => exact LNode.mwtS_same reduce ops.flip h.flip hr.ofL hs.ofS d
    | C b v z => exact Node.mwtS_same reduce e ops.flip h.flip hs.ofS _ hr d
  | hL l =>
    intro hl r hr d
    cases r with
    | S r => exact LNode.twmS_same reduce ops h hl.ofL hr.ofS d
    | L r => exact LNode.twmL_same reduce ops h hl.ofL hr.ofL d
    | C b v z => exact Node.mwtL_same reduce e ops.flip h.flip hl.ofL _ hr d
  | hC bits values extra ih =>
    intro hc r hr d
    rw [Node.twm_C, Node.twm_C]
    cases r with
    | S r =>
      unfold twmC
      rw [map_pair_fst, map_pair_fst]
      exact Node.twmS_same reduce e ops par h hr.ofS _ hc d
    | L r =>
      unfold twmC
      rw [map_pair_fst, map_pair_fst]
      exact Node.twmL_same reduce e ops par h hr.ofL _ hc d
    | C b v z =>
      exact congrArg (· >>= TRes.finish)
        (bothLoop_same fun m hm r hr' => ih m hm (hc.ofC m hm) r (hr.ofC r hr') (d + 1))

end

section
variable (ops : MwtOps K V L W R) (par : Par)

/-- `Node.mwt` on a branch node. -/
theorem Node.mwt_C (x : Cross c K L) (bits : BitVec c.n) (values : List (Node c.n K V)) (extra : Nat)
    (r : Node c.n L W) (d : Nat) : (Node.C bits values extra).mwt x reduce e ops par r d =
      mwtC x reduce e ops par bits (values.map fun m => (m, fun r => m.mwt x reduce e ops par r (d + 1)))
        extra d r :=
  congrFun (Node.fold_C bits values extra d) r

theorem Node.mwt_same (h : x.Same y P Q) (m : Node c.n K V) : m.Grouped x.hash P → ∀ (r : Node c.n L W),
    r.Grouped x.hash' Q → ∀ d, m.mwt y reduce e ops par r d = m.mwt x reduce e ops par r d := by
  induction m using Node.ind with
  | hS s =>
    intro hs r hr d
    cases r with
    | S r => exact SNode.mwt_same reduce ops h hs.ofS hr.ofS d
    | L r => exact LNode.twmS_same reduce ops.flip h.flip hr.ofL hs.ofS d
    | C b v z => exact Node.twmS_same reduce e ops.flip par h.flip hs.ofS _ hr d
  | hL l =>
    intro hl r hr d
    cases r with
    | S r => exact LNode.mwtS_same reduce ops h hl.ofL hr.ofS d
    | L r => exact LNode.twmL_same reduce ops.flip h.flip hr.ofL hl.ofL d
    | C b v z => exact Node.twmL_same reduce e ops.flip par h.flip hl.ofL _ hr d
  | hC bits values extra ih =>
    intro hc r hr d
    rw [Node.mwt_C, Node.mwt_C]
    cases r with
    | S r =>
      unfold mwtC
      rw [map_pair_fst, map_pair_fst]
      exact Node.mwtS_same reduce e ops h hr.ofS _ hc d
    | L r =>
      unfold mwtC
      rw [map_pair_fst, map_pair_fst]
      exact Node.mwtL_same reduce e ops h hr.ofL _ hc d
    | C b v z =>
      exact congrArg (· >>= TRes.finish)
        (bothLoop_same fun m hm r hr' => ih m hm (hc.ofC m hm) r (hr.ofC r hr') (d + 1))

end

section
variable (ops : MwmOps K V L W S X R)

theorem Node.mwmS_same (h : x.Same y P Q) {r : SNode L W} (hr : Q r.key) (m : Node c.n K V) :
    m.Grouped x.hash P → ∀ d, m.mwmS y reduce e ops r d = m.mwmS x reduce e ops r d := by
  induction m using Node.ind with
  | hS s =>
    intro hs d; exact SNode.mwm_same reduce ops h hs.ofS hr d
  | hL l =>
    intro hl d; exact LNode.mwmS_same reduce ops h hl.ofL hr d
  | hC bits values extra ih =>
    intro hc d
    refine (Node.fold_C _ _ _ _).trans (Eq.trans ?_ (Node.fold_C _ _ _ _).symm)
    exact congrArg (· >>= XRes.finish) (flatLoop_same (h.hash' _ hr) fun m hm => ih m hm (hc.ofC m hm) (d + 1))

theorem Node.mwmL_same (h : x.Same y P Q) {r : LNode L W} (hr : r.Grouped x.hash' Q) (m : Node c.n K V) :
    m.Grouped x.hash P → ∀ d, m.mwmL y reduce e ops r d = m.mwmL x reduce e ops r d := by
  induction m using Node.ind with
  | hS s =>
    intro hs d; exact LNode.mwmS_same reduce ops.flip h.flip hr hs.ofS d
  | hL l =>
    intro hl d; exact LNode.mwmL_same reduce ops h hl.ofL hr d
  | hC bits values extra ih =>
    intro hc d
    refine (Node.fold_C _ _ _ _).trans (Eq.trans ?_ (Node.fold_C _ _ _ _).symm)
    exact congrArg (· >>= XRes.finish) (flatLoop_same (h.hash' _ hr.key) fun m hm => ih m hm (hc.ofC m hm) (d + 1))

/-- `Node.mwm` on a branch node. -/
theorem Node.mwm_C (x : Cross c K L) (bits : BitVec c.n) (values : List (Node c.n K V)) (extra : Nat)
    (r : Node c.n L W) (d : Nat) : (Node.C bits values extra).mwm x reduce e ops r d =
      mwmC x reduce e ops bits (values.map fun m => (m, fun r => m.mwm x reduce e ops r (d + 1)))
        extra d r :=
  congrFun (Node.fold_C bits values extra d) r

theorem Node.mwm_same (h : x.Same y P Q) (m : Node c.n K V) : m.Grouped x.hash P → ∀ (r : Node c.n L W),
    r.Grouped x.hash' Q → ∀ d, m.mwm y reduce e ops r d = m.mwm x reduce e ops r d := by
  induction m using Node.ind with
  | hS s =>
    intro hs r hr d
    cases r with
    | S r => exact SNode.mwm_same reduce ops h hs.ofS hr.ofS d
    | L r => exact LNode.mwmS_same reduce ops.flip h.flip hr.ofL hs.ofS d
    | C b v z => exact Node.mwmS_same reduce e ops.flip h.flip hs.ofS _ hr d
  | hL l =>
    intro hl r hr d
    cases r with
    | S r => exact LNode.mwmS_same reduce ops h hl.ofL hr.ofS d
    | L r => exact LNode.mwmL_same reduce ops h hl.ofL hr.ofL d
    | C b v z => exact Node.mwmL_same reduce e ops.flip h.flip hl.ofL _ hr d
  | hC bits values extra ih =>
    intro hc r hr d
    rw [Node.mwm_C, Node.mwm_C]
    cases r with
    | S r =>
      unfold mwmC
      rw [map_pair_fst, map_pair_fst]
      exact Node.mwmS_same reduce e ops h hr.ofS _ hc d
    | L r =>
      unfold mwmC
      rw [map_pair_fst, map_pair_fst]
      exact Node.mwmL_same reduce e ops h hr.ofL _ hc d
    | C b v z =>
      exact congrArg (· >>= XRes.finish)
        (bothLoop_same fun m hm r hr' => ih m hm (hc.ofC m hm) r (hr.ofC r hr') (d + 1))

end

/-- `Node.twt` on a branch node. -/
theorem Node.twt_C [BEq K] (hash : K → BitVec c.w) (ops : TwtOps K V R) (par : Par) (bits : BitVec c.n)
    (values : List (Node c.n K V)) (extra : Nat) (r : Node c.n K V) (d : Nat) :
    (Node.C bits values extra).twt reduce e hash ops par r d =
      twtC reduce e hash ops par bits (values.map fun m => (m, fun r => m.twt reduce e hash ops par r (d + 1)))
        extra d r :=
  congrFun (Node.fold_C bits values extra d) r

section
variable {i j : BEq K} {f g : K → BitVec c.w} {Q : K → Prop} (ops : TwtOps K V R) (par : Par)

theorem Node.twtS_same (h : (Cross.of i f).Same (Cross.of j g) P Q) {r : SNode K V} (hr : Q r.key)
    (m : Node c.n K V) : m.Grouped f P → ∀ d,
    @Node.twtS K V R c reduce e j g ops par m r d = @Node.twtS K V R c reduce e i f ops par m r d := by
  induction m using Node.ind with
  | hS s =>
    intro hs d; exact SNode.twt_same reduce ops h hs.ofS hr d
  | hL l =>
    intro hl d; exact LNode.twtS_same reduce ops h hl.ofL hr d
  | hC bits values extra ih =>
    intro hc d
    refine (Node.fold_C _ _ _ _).trans (Eq.trans ?_ (Node.fold_C _ _ _ _).symm)
    exact congrArg (· >>= JRes.finish) (flatLoop_same (h.hash' _ hr) fun m hm => ih m hm (hc.ofC m hm) (d + 1))

theorem Node.twtL_same (h : (Cross.of i f).Same (Cross.of j g) P Q) {r : LNode K V} (hr : r.Grouped f Q)
    (m : Node c.n K V) : m.Grouped f P → ∀ d,
    @Node.twtL K V R c reduce e j g ops par m r d = @Node.twtL K V R c reduce e i f ops par m r d := by
  induction m using Node.ind with
  | hS s =>
    intro hs d; exact congrArg JRes.flipR (LNode.twtS_same reduce ops.flip h.flip hr hs.ofS d)
  | hL l =>
    intro hl d; exact LNode.twtL_same reduce ops h hl.ofL hr d
  | hC bits values extra ih =>
    intro hc d
    refine (Node.fold_C _ _ _ _).trans (Eq.trans ?_ (Node.fold_C _ _ _ _).symm)
    exact congrArg (· >>= JRes.finish) (flatLoop_same (h.hash' _ hr.key) fun m hm => ih m hm (hc.ofC m hm) (d + 1))

theorem Node.twt_same (h : (Cross.of i f).Same (Cross.of j g) P Q) (m : Node c.n K V) : m.Grouped f P →
    ∀ (r : Node c.n K V), r.Grouped f Q → ∀ d,
    @Node.twt K V R c reduce e j g ops par m r d = @Node.twt K V R c reduce e i f ops par m r d := by
  induction m using Node.ind with
  | hS s =>
    intro hs r hr d
    cases r with
    | S r => exact SNode.twt_same reduce ops h hs.ofS hr.ofS d
    | L r => exact congrArg JRes.flipR (LNode.twtS_same reduce ops.flip h.flip hr.ofL hs.ofS d)
    | C b v z => exact congrArg JRes.flipR (Node.twtS_same reduce e ops.flip par h.flip hs.ofS _ hr d)
  | hL l =>
    intro hl r hr d
    cases r with
    | S r => exact LNode.twtS_same reduce ops h hl.ofL hr.ofS d
    | L r => exact LNode.twtL_same reduce ops h hl.ofL hr.ofL d
    | C b v z => exact congrArg JRes.flipR (Node.twtL_same reduce e ops.flip par h.flip hl.ofL _ hr d)
  | hC bits values extra ih =>
    intro hc r hr d
    rw [Node.twt_C, Node.twt_C]
    cases r with
    | S r =>
      unfold twtC
      rw [map_pair_fst, map_pair_fst]
      exact Node.twtS_same reduce e ops par h hr.ofS _ hc d
    | L r =>
      unfold twtC
      rw [map_pair_fst, map_pair_fst]
      exact Node.twtL_same reduce e ops par h hr.ofL _ hc d
    | C b v z =>
      unfold twtC twtCC
      cases (ops.shortcut : Option (JRes (Node c.n K V) R)) with
      | some res => rfl
      | none =>
        exact congrArg (· >>= JRes.finish)
          (bothLoop_same fun m hm r hr' => ih m hm (hc.ofC m hm) r (hr.ofC r hr') (d + 1))

end
end HT
