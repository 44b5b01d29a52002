import Verif.KeyCallsInsert
import Verif.EffBase
import Verif.TwtRed
/-! # When the keys' own code is pure, the calls change nothing -/
namespace HT

variable {K V : Type} {c : Cfg} (hash : K → BitVec c.w) (q : K → Bool) (h : BitVec c.w)

/-- Keys whose code is pure: `h` is the hash of the lookup key, `q` compares with it, `hash` is the hash of the others. -/
def pureKeys : (x : KCall K V) → KAns K V c.w x
  | .lookupHash => h
  | .hash k => hash k
  | .eq k => q k
  | .intoKey => ()
  | .intoValue => ()
  | .cloneKey _ => ()
  | .cloneValue _ => ()

open Tree

theorem eval_res {α : Type} (x : Res α) : (Tree.res x : KTree c K V α).eval (pureKeys hash q h) = x := by
  cases x <;> rfl

theorem eval_askEq {α : Type} (k : K) (f : Bool → KTree c K V α) :
    ((askEq c k).bind f).eval (pureKeys hash q h) = (f (q k)).eval (pureKeys hash q h) := rfl

theorem eval_askInto {α : Type} (f : Unit → KTree c K V α) :
    ((askInto c).bind f).eval (pureKeys hash q h) = (f ()).eval (pureKeys hash q h) := rfl

theorem eval_askClone {α : Type} (k : K) (v : V) (f : Unit → KTree c K V α) :
    ((askClone c k v).bind f).eval (pureKeys hash q h) = (f ()).eval (pureKeys hash q h) := rfl

theorem eval_askHash {α : Type} (k : K) (f : BitVec c.w → KTree c K V α) :
    ((askHash c k).bind f).eval (pureKeys hash q h) = (f (hash k)).eval (pureKeys hash q h) := rfl

theorem eval_ite {α : Type} {p : Prop} [Decidable p] (x y : KTree c K V α) :
    (if p then x else y).eval (pureKeys hash q h) =
      if p then x.eval (pureKeys hash q h) else y.eval (pureKeys hash q h) := by
  split <;> rfl

theorem SNode.findK_eval (s : SNode K V) :
    (s.findK c).eval (pureKeys hash q h) = .ok (s.find q) := by
  rw [SNode.findK, bind_def, eval_askEq, eval_ite, SNode.find]
  split <;> rfl

theorem LNode.findK_eval (l : LNode K V) :
    (l.findK c).eval (pureKeys hash q h) = .ok (l.find q) := by
  induction l with
  | nextS k v s z =>
    rw [LNode.findK, bind_def, eval_askEq, eval_ite, LNode.find, SNode.findK_eval]
    split <;> rfl
  | nextL k v l z ih =>
    rw [LNode.findK, bind_def, eval_askEq, eval_ite, LNode.find, ih]
    split <;> rfl

theorem LNode.removeFromK_eval (l : LNode K V) :
    (l.removeFromK c).eval (pureKeys hash q h) = .ok (l.removeFrom q) := by
  induction l with
  | nextS k v s z =>
    rw [LNode.removeFromK, bind_def, eval_askEq, eval_ite, LNode.removeFrom]
    split
    · rfl
    · rw [bind_def, eval_askEq, eval_ite]
      split <;> rfl
  | nextL k v l z ih =>
    rw [LNode.removeFromK, bind_def, eval_askEq, eval_ite, LNode.removeFrom]
    split
    · rfl
    · rw [bind_def, Tree.eval_bind, ih]
      simp only [Res.ok_bind]
      cases l.removeFrom q <;> rfl

theorem liftLK_eval (this : LNext K V) (k : K) (v : V) (f : Flag c) :
    (liftLK c this k v f).eval (pureKeys hash q h) = liftL c hash this k v f := by
  rw [liftLK, bind_def, eval_askHash, eval_ite, liftL]
  split
  · rfl
  · simp only [bind_def, Tree.eval_bind, eval_res]
    congr 1

theorem SNode.insertK_eval (k : K) (v : V) (replace : Bool) (s : SNode K V) (f : Option (Flag c)) :
    (s.insertK c k v replace f).eval (pureKeys hash q h) = s.insert c hash q k v replace f := by
  rw [SNode.insertK, bind_def, eval_askEq, eval_ite, SNode.insert]
  split
  · rw [eval_ite]; split <;> rfl
  · simp only [bind_def, Tree.eval_bind, eval_res, liftLK_eval]

theorem LNode.insertK_eval (k : K) (v : V) (replace : Bool) (l : LNode K V) (f : Option (Flag c)) :
    (l.insertK c k v replace f).eval (pureKeys hash q h) = l.insert c hash q k v replace f := by
  rw [LNode.insertK, bind_def, Tree.eval_bind, LNode.findK_eval, LNode.insert]
  simp only [Res.ok_bind]
  cases l.find q with
  | none => simp only [bind_def, Tree.eval_bind, eval_res, liftLK_eval]
  | some e =>
    obtain ⟨fk, fv⟩ := e
    simp only [eval_ite]
    split
    · rw [bind_def, Tree.eval_bind, LNode.removeFromK_eval]
      simp only [Res.ok_bind]
      cases l.removeFrom q <;> rfl
    · rfl

theorem Node.findK_eval (m : Node c.n K V) (f : Option (Flag c)) :
    (m.findK c f).eval (pureKeys hash q h) = m.find c q f := by
  induction m using Node.ind generalizing f with
  | hS s => rw [Node.findK, SNode.findK_eval, Node.find]
  | hL l => rw [Node.findK, LNode.findK_eval, Node.find]
  | hC bits values extra ih =>
    rw [Node.findK, Node.find]
    simp only [bind_def, Tree.eval_bind, eval_res]
    congr 1; funext f
    rw [Node.findAllK_eq, Node.findAll_eq, Bia.at'_map, Bia.at'_map]
    cases ha : (Bia.mk bits values extra).at' f.flag with
    | error e => rfl
    | ok m =>
      have := ih m (Bia.at'_mem ha)
      cases m with
      | S s => exact SNode.findK_eval ..
      | L l => exact LNode.findK_eval ..
      | C b v e =>
        simp only [Node.childFindK, bind_def, Tree.eval_bind, eval_res]
        congr 1; funext f
        exact this f

theorem Node.insertK_eval (k : K) (v : V) (replace : Bool) (m : Node c.n K V) (f : Option (Flag c)) :
    (m.insertK c k v replace f).eval (pureKeys hash q h) = m.insert c hash q k v replace f := by
  induction m using Node.ind generalizing f with
  | hS s => rw [Node.insertK, SNode.insertK_eval, Node.insert]
  | hL l => rw [Node.insertK, LNode.insertK_eval, Node.insert]
  | hC bits values extra ih =>
    rw [Node.insertK, Node.insert]
    simp only [bind_def, Tree.eval_bind, eval_res]
    congr 1; funext f
    rw [Node.insertAllK_eq, Node.insertAll_eq', Bia.at'_map, Bia.at'_map]
    cases ha : (Bia.mk bits values extra).at' f.flag with
    | error e =>
      simp only [bind_def, Tree.eval_bind, eval_res]
      rfl
    | ok m =>
      simp only [bind_def, Tree.eval_bind, eval_res, ih m (Bia.at'_mem ha)]
      congr 1; funext nx
      congr 1; funext r
      rcases r with ⟨fk, fv⟩ | ⟨m, size, ptr, prev⟩
      · rfl
      · simp only [bind_def, Tree.eval_bind, eval_res]
        rfl

theorem Node.removeK_eval (m : Node c.n K V) (f : Option (Flag c)) :
    (m.removeK c f).eval (pureKeys hash q h) = m.remove c q f := by
  induction m using Node.ind generalizing f with
  | hS s =>
    rw [Node.removeK, Node.remove, SNode.removeK, bind_def, eval_askEq, eval_ite, SNode.remove]
    split <;> rfl
  | hL l =>
    rw [Node.removeK, Node.remove, LNode.removeK, bind_def, Tree.eval_bind, LNode.removeFromK_eval, LNode.remove]
    simp only [Res.ok_bind]
    cases l.removeFrom q <;> rfl
  | hC bits values extra ih =>
    rw [Node.removeK, Node.remove]
    simp only [bind_def, Tree.eval_bind, eval_res]
    congr 1; funext f
    rw [Node.removeAllK_eq, Node.removeAll_eq', Bia.at'_map, Bia.at'_map]
    cases ha : (Bia.mk bits values extra).at' f.flag with
    | error e => rfl
    | ok m =>
      simp only [bind_def, Tree.eval_bind, eval_res, ih m (Bia.at'_mem ha)]
      rfl

theorem Trie.findK_eval (t : Trie c K V) : t.findK.eval (pureKeys hash q h) = t.findQ q h := by
  show ((Tree.res (Flag.new h) : KTree c K V _).bind fun f => t.root.findK c (some f)).eval _ = _
  rw [Tree.eval_bind, eval_res, Trie.findQ]
  congr 1; funext f
  exact Node.findK_eval ..

theorem Trie.insertK_eval (t : Trie c K V) (k : K) (v : V) (replace : Bool) :
    (t.insertK k v replace).eval (pureKeys hash q h) = t.insertQ hash q h k v replace := by
  show ((Tree.res (Flag.new h) : KTree c K V _).bind fun f => (t.root.insertK c k v replace (some f)).bind _).eval _ = _
  rw [Tree.eval_bind, eval_res, Trie.insertQ]
  congr 1; funext f
  rw [Tree.eval_bind, Node.insertK_eval]
  congr 1; funext r
  cases r <;> rfl

theorem Trie.removeK_eval (t : Trie c K V) : t.removeK.eval (pureKeys hash q h) = t.removeQ q h := by
  show ((Tree.res (Flag.new h) : KTree c K V _).bind fun f => (t.root.removeK c (some f)).bind _).eval _ = _
  rw [Tree.eval_bind, eval_res, Trie.removeQ]
  congr 1; funext f
  rw [Tree.eval_bind, Node.removeK_eval]
  congr 1; funext r
  cases r <;> rfl

end HT
