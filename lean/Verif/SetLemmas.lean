import Verif.Api
import Verif.SetSpec
import Verif.History
import Verif.Reach
import Verif.NatTrie
/-! # Sets: histories, reachability, and what the conversions of operations mean -/
namespace HT

variable {K L S R : Type} {c : Cfg}

namespace HSet

/-- One call of the set API (`/repo/src/set.rs:81-109`).  The driver is not part of the crate. -/
def step [BEq K] (hash : K → BitVec c.w) (vs : List (HSet c K)) : SOp K → Res (SOut K × List (HSet c K))
  | .insert src k replace =>
    match vs[src]? with
    | none => .ok (.noSuchVersion, vs)
    | some t => do
      match ← t.insert hash k replace with
      | .error e => .ok (.occupied e, vs)
      | .ok (t', ptr, prev) => .ok (.inserted ptr prev, vs ++ [t'])
  | .remove src k =>
    match vs[src]? with
    | none => .ok (.noSuchVersion, vs)
    | some t => do
      match ← t.remove hash k with
      | none => .ok (.notFound, vs)
      | some (t', e) => .ok (.removed e, vs ++ [t'])
  | .find src k =>
    match vs[src]? with
    | none => .ok (.noSuchVersion, vs)
    | some t => do
      match ← t.find hash k with
      | none => .ok (.notFound, vs)
      | some e => .ok (.found e, vs)
  | .size src =>
    match vs[src]? with
    | none => .ok (.noSuchVersion, vs)
    | some t => .ok (.size t.size, vs)
  | .visit src =>
    match vs[src]? with
    | none => .ok (.noSuchVersion, vs)
    | some t => .ok (.visited t.visit, vs)

/-- A history of calls of the set API, each on any version obtained so far. -/
def run [BEq K] (hash : K → BitVec c.w) (vs : List (HSet c K)) : List (SOp K) → Res (List (SOut K) × List (HSet c K))
  | [] => .ok ([], vs)
  | op :: ops => do
    let (o, vs') ← step hash vs op
    let (os, vs'') ← run hash vs' ops
    .ok (o :: os, vs'')

end HSet

/-- The call on a map with values `()`. -/
def SOp.toMap : SOp K → Op K Unit
  | .insert src k replace => .insert src k () replace
  | .remove src k => .remove src k
  | .find src k => .find src k
  | .size src => .size src
  | .visit src => .visit src

/-- The answer with the values dropped. -/
def Out.drop : Out K Unit → SOut K
  | .inserted ptr prev => .inserted ptr.1 (prev.map Prod.fst)
  | .occupied e => .occupied e.1
  | .removed e => .removed e.1
  | .found e => .found e.1
  | .notFound => .notFound
  | .size n => .size n
  | .visited es => .visited (es.map Prod.fst)
  | .noSuchVersion => .noSuchVersion

section
variable [BEq K] (hash : K → BitVec c.w)

theorem HSet.step_eq (vs : List (Trie c K Unit)) (op : SOp K) :
    HSet.step hash (vs.map HSet.mk) op =
      (Trie.step hash vs op.toMap).mapOk fun p => (p.1.drop, p.2.map HSet.mk) := by
  cases op with
  | insert src k replace =>
    simp only [HSet.step, SOp.toMap, Trie.step, List.getElem?_map]
    cases vs[src]? with
    | none => rfl
    | some t =>
      simp only [Option.map_some, HSet.insert, HSet.insertQ, Trie.insert]
      cases t.insertQ hash (fun x => x == k) (hash k) k () replace with
      | ok r => cases r with
        | error e => rfl
        | ok r => obtain ⟨t', ptr, prev⟩ := r; simp [Out.drop, Res.mapOk]
      | _ => rfl
  | remove src k =>
    simp only [HSet.step, SOp.toMap, Trie.step, List.getElem?_map]
    cases vs[src]? with
    | none => rfl
    | some t =>
      simp only [Option.map_some, HSet.remove, HSet.removeQ, Trie.remove]
      cases t.removeQ (fun x => x == k) (hash k) with
      | ok r => cases r with
        | none => rfl
        | some r => obtain ⟨t', e⟩ := r; simp [Out.drop, Res.mapOk]
      | _ => rfl
  | find src k =>
    simp only [HSet.step, SOp.toMap, Trie.step, List.getElem?_map]
    cases vs[src]? with
    | none => rfl
    | some t =>
      simp only [Option.map_some, HSet.find, HSet.findQ, Trie.find]
      cases t.findQ (fun x => x == k) (hash k) with
      | ok r => cases r <;> rfl
      | _ => rfl
  | size src =>
    simp only [HSet.step, SOp.toMap, Trie.step, List.getElem?_map]
    cases vs[src]? <;> rfl
  | visit src =>
    simp only [HSet.step, SOp.toMap, Trie.step, List.getElem?_map]
    cases vs[src]? <;> rfl

theorem HSet.run_eq (ops : List (SOp K)) (vs : List (Trie c K Unit)) :
    HSet.run hash (vs.map HSet.mk) ops =
      (Trie.run hash vs (ops.map SOp.toMap)).mapOk fun p => (p.1.map Out.drop, p.2.map HSet.mk) := by
  induction ops generalizing vs with
  | nil => rfl
  | cons op ops ih =>
    simp only [HSet.run, List.map_cons, Trie.run, HSet.step_eq]
    cases Trie.step hash vs op.toMap with
    | ok r =>
      simp only [Res.mapOk_ok, Res.ok_bind, ih]
      cases Trie.run hash r.2 (ops.map SOp.toMap) <;> rfl
    | _ => rfl

end

section
variable [BEq K]

theorem find?_map_fst (p : K → Bool) (l : List (K × Unit)) :
    (l.map Prod.fst).find? p = (l.find? fun e => p e.1).map Prod.fst := by
  rw [List.find?_map]; rfl

theorem ASet.step_eq (vs : List (AMap K Unit)) (op : SOp K) :
    ASet.step (vs.map (List.map Prod.fst)) op =
      ((AMap.step vs op.toMap).1.drop, (AMap.step vs op.toMap).2.map (List.map Prod.fst)) := by
  cases op with
  | insert src k replace =>
    simp only [ASet.step, SOp.toMap, AMap.step, List.getElem?_map]
    cases vs[src]? with
    | none => rfl
    | some m =>
      simp only [Option.map_some, AMap.insert, AMap.find, find?_map_fst]
      cases m.find? (fun e => e.1 == k) <;> cases replace <;>
        simp [Out.drop, AMap.without, List.filter_map, Function.comp_def]
  | remove src k =>
    simp only [ASet.step, SOp.toMap, AMap.step, List.getElem?_map]
    cases vs[src]? with
    | none => rfl
    | some m =>
      simp only [Option.map_some, AMap.remove, AMap.find, find?_map_fst]
      cases m.find? (fun e => e.1 == k) <;>
        simp [Out.drop, AMap.without, List.filter_map, Function.comp_def]
  | find src k =>
    simp only [ASet.step, SOp.toMap, AMap.step, List.getElem?_map]
    cases vs[src]? with
    | none => rfl
    | some m =>
      simp only [Option.map_some, AMap.find, find?_map_fst]
      cases m.find? (fun e => e.1 == k) <;> rfl
  | size src =>
    simp only [ASet.step, SOp.toMap, AMap.step, List.getElem?_map]
    cases vs[src]? <;> simp [Out.drop]
  | visit src =>
    simp only [ASet.step, SOp.toMap, AMap.step, List.getElem?_map]
    cases vs[src]? <;> simp [Out.drop]

theorem ASet.run_eq (ops : List (SOp K)) (vs : List (AMap K Unit)) :
    ASet.run (vs.map (List.map Prod.fst)) ops =
      ((AMap.run vs (ops.map SOp.toMap)).1.map Out.drop,
        (AMap.run vs (ops.map SOp.toMap)).2.map (List.map Prod.fst)) := by
  induction ops generalizing vs with
  | nil => rfl
  | cons op ops ih => simp only [ASet.run, List.map_cons, AMap.run, ASet.step_eq, ih]

omit [BEq K] in
theorem Out.Same.drop {a b : Out K Unit} (h : a.Same b) : a.drop.Same b.drop := by
  cases a <;> cases b <;> simp_all [Out.Same, Out.drop, SOut.Same]
  exact List.Perm.map _ h

theorem Pointwise.map {A B C D : Type} {P : A → B → Prop} {Q : C → D → Prop} (f : A → C) (g : B → D)
    (h : ∀ a b, P a b → Q (f a) (g b)) {as : List A} {bs : List B} (hp : Pointwise P as bs) :
    Pointwise Q (as.map f) (bs.map g) := by
  induction as generalizing bs with
  | nil => cases bs <;> first | trivial | exact hp.elim
  | cons a as ih => cases bs with
    | nil => exact hp.elim
    | cons b bs => exact ⟨h _ _ hp.1, ih hp.2⟩

end

/-! ### Conversions -/

@[simp] theorem SetTransform.toMap_call (op : SetTransform R (K → SetTransformResult R)) (k : K) (u : Unit) :
    op.toMap.call k u = (op.call k).toMap := by cases op <;> rfl
@[simp] theorem SetTransmute.toMap_call (op : SetTransmute R (K → SetTransmuteResult S R)) (k : K) (u : Unit) :
    op.toMap.call k u = (op.call k).toMap := by cases op <;> rfl
@[simp] theorem SetTransform.toMap2_call (op : SetTransform R (K → L → SetTransformResult R)) (k : K) (u : Unit)
    (l : L) (v : Unit) : op.toMap2.call2 k u l v = (op.call2 k l).toMap := rfl
@[simp] theorem SetTransmute.toMap2_call (op : SetTransmute R (K → L → SetTransmuteResult S R)) (k : K) (u : Unit)
    (l : L) (v : Unit) : op.toMap2.call2 k u l v = (op.call2 k l).toMap := rfl
@[simp] theorem SetJointTransform.toMap_call (op : SetJointTransform R (K → K → SetJointTransformResult R))
    (k l : K) (u v : Unit) : op.toMap.call k u l v = (op.call k l).toMap := by
  cases op with
  | generic f b =>
    simp only [SetJointTransform.toMap, MapJointTransform.call, SetJointTransform.call]
    cases b
    · rfl
    · cases h : f l k <;> simp [h, SetJointTransformResult.toMap, SetJointTransformResult.flip, MapJointTransformResult.flip]
  | _ => rfl

end HT
