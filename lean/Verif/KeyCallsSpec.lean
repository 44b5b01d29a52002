import Verif.KeyCalls
import Verif.LawlessSpec
/-!
# Which code of the keys is called, and what is done with the answers

Reference programs for `find`, `insert` and `remove`: they work on the list of the entries.
-/
namespace HT

variable {Q : Type} {A : Q → Type} {α : Type} {K V : Type}

/-- A run of a program: the calls it makes, with the answers it gets (`none`: the call does not return), and how it
    ends. -/
inductive Tree.Path : Tree Q A α → List (Reply Q A) → Outcome Q α → Prop
  | ret (a : α) : Path (.ret a) [] (.ret a)
  | panic (p : Panic) : Path (.panic p) [] (.panic p)
  | diverge : Path .diverge [] .diverge
  | stop (q : Q) (k : A q → Tree Q A α) : Path (.ask q k) [⟨q, none⟩] (.closure q)
  | ask (q : Q) (k : A q → Tree Q A α) (a : A q) (tr : List (Reply Q A)) (o : Outcome Q α) :
      Path (k a) tr o → Path (.ask q k) (⟨q, some a⟩ :: tr) o

/-- What `==` is asked about a list of entries: each in turn, until it answers yes.  The result is that entry, with
    those before and after it. -/
def look (c : Cfg) : List (K × V) → KTree c K V (Option (List (K × V) × (K × V) × List (K × V)))
  | [] => .ret none
  | e :: b => .ask (.eq e.1) fun (yes : Bool) =>
    if yes then .ret (some ([], e, b))
    else (look c b).bind fun r => .ret (r.map fun (p, e', q) => (e :: p, e', q))

/-- Copies of some entries are made, the last one first. -/
def copy (c : Cfg) : List (K × V) → KTree c K V Unit
  | [] => .ret ()
  | e :: b => (copy c b).bind fun _ =>
    .ask (.cloneKey e.1) fun _ => .ask (.cloneValue e.2) fun _ => .ret ()

/-- The key and the value are converted. -/
def convert (c : Cfg) : KTree c K V Unit := .ask .intoKey fun _ => .ask .intoValue fun _ => .ret ()

/-- A part of the entries of a map: those that `==` may be asked about. -/
structure Bucket (K V : Type) where
  before : List (K × V)
  mid : List (K × V)
  after : List (K × V)

/-- The bucket of a hash `h` in the entries `l`: it consists of consecutive entries, all with one hash; no other entry
    has this hash, and none has the hash `h`. -/
structure Bucket.Of {w : Nat} (hash : K → BitVec w) (l : List (K × V)) (h : BitVec w) (b : Bucket K V) : Prop where
  eq : l = b.before ++ b.mid ++ b.after
  one : ∀ e ∈ b.mid, ∀ e' ∈ b.mid, hash e'.1 = hash e.1
  only : ∀ e ∈ b.mid, ∀ e' ∈ b.before ++ b.after, hash e'.1 ≠ hash e.1
  all : ∀ e ∈ b.before ++ b.after, hash e.1 ≠ h

/-- What `find` does once it has the hash. -/
def findRef (c : Cfg) (b : Bucket K V) : KTree c K V (Option (K × V)) :=
  (look c b.mid).bind fun r => .ret (r.map fun (_, e, _) => e)

/-- What `remove` does once it has the hash; `g p e q` is the new map, when `p`, `e`, `q` are the entries of the bucket
    before the one to remove, that one, and those after it. -/
def removeRef (c : Cfg) (b : Bucket K V) (g : List (K × V) → K × V → List (K × V) → Trie c K V) :
    KTree c K V (Option (Trie c K V × (K × V))) :=
  (look c b.mid).bind fun
    | none => .ret none
    | some (p, e, q) => (copy c p).bind fun _ => .ret (some (g p e q, e))

/-- What `insert` does once it has the hash: `new` is the new map if no entry is to be replaced, `g p e q` the new map
    if `e` is replaced.  In a bucket of several entries the entry to replace is looked for twice. -/
def insertRef (c : Cfg) (k : K) (v : V) (replace : Bool) (b : Bucket K V) (new : Trie c K V)
    (g : List (K × V) → K × V → List (K × V) → Trie c K V) :
    KTree c K V (Except (K × V) (Trie c K V × (K × V) × Option (K × V))) :=
  (look c b.mid).bind fun
    | none =>
      match b.mid with
      | [] => (convert c).bind fun _ => .ret (.ok (new, (k, v), none))
      | e :: _ => .ask (.hash e.1) fun _ => (convert c).bind fun _ => .ret (.ok (new, (k, v), none))
    | some (p, e, q) =>
      if replace then
        match b.mid with
        | [_] => (convert c).bind fun _ => .ret (.ok (g p e q, (k, v), some e))
        | _ => (look c b.mid).bind fun
          | none => .panic .explicit
          | some (p, e, q) => (copy c p).bind fun _ =>
            (convert c).bind fun _ => .ret (.ok (g p e q, (k, v), some e))
      else .ret (.error e)

/-- The kinds of calls. -/
inductive KKind where
  | lookupHash
  | hash
  | eq
  | into
  | clone
  deriving DecidableEq, Repr

/-- The kind of a call. -/
def KCall.kind : KCall K V → KKind
  | .lookupHash => .lookupHash
  | .hash _ => .hash
  | .eq _ => .eq
  | .intoKey => .into
  | .intoValue => .into
  | .cloneKey _ => .clone
  | .cloneValue _ => .clone

/-- How many of the calls are of this kind. -/
def callsOf {w : Nat} (kind : KKind) (calls : List (Reply (KCall K V) (KAns K V w))) : Nat :=
  calls.countP fun x => decide (x.1.kind = kind)

/-- In these calls `==` never answers both yes and no of the same key. -/
def Steady {w : Nat} (calls : List (Reply (KCall K V) (KAns K V w))) : Prop :=
  ∀ k, ⟨.eq k, some true⟩ ∈ calls → ⟨.eq k, some false⟩ ∉ calls

/-- In these calls the hashes are the right ones (`h` that of the lookup key). -/
def HonestHash {w : Nat} (hash : K → BitVec w) (h : BitVec w) (calls : List (Reply (KCall K V) (KAns K V w))) : Prop :=
  (∀ a, ⟨.lookupHash, some a⟩ ∈ calls → a = h) ∧ ∀ k a, ⟨.hash k, some a⟩ ∈ calls → a = hash k

/-- In these calls `==` says yes only of keys with the hash `h`. -/
def HonestEq {w : Nat} (hash : K → BitVec w) (h : BitVec w) (calls : List (Reply (KCall K V) (KAns K V w))) : Prop :=
  ∀ k, ⟨.eq k, some true⟩ ∈ calls → hash k = h

/-- The maps a program can hold when hashes are right and `==` answers anything whenever it is called: it may say
    different things of the same two keys at different times.  Only when an entry is replaced by `insert`, the keys
    it called equal must have the same hash. -/
inductive Held (c : Cfg) : {K V : Type} → (K → BitVec c.w) → Trie c K V → Prop
  | new {K V : Type} {hash : K → BitVec c.w} : Held c hash (Trie.new c : Trie c K V)
  | insert {K V : Type} {hash : K → BitVec c.w} {t t' : Trie c K V} {k : K} {v : V} {replace : Bool}
      {ptr : K × V} {prev : Option (K × V)} {calls : List (Reply (KCall K V) (KAns K V c.w))} (h : Held c hash t)
      (run : (t.insertK k v replace).Path calls (.ret (.ok (t', ptr, prev))))
      (hh : HonestHash hash (hash k) calls) (he : HonestEq hash (hash k) calls) : Held c hash t'
  | remove {K V : Type} {hash : K → BitVec c.w} {t t' : Trie c K V} {e : K × V}
      {calls : List (Reply (KCall K V) (KAns K V c.w))} (h : Held c hash t)
      (run : t.removeK.Path calls (.ret (some (t', e)))) : Held c hash t'
  | transform {K V R : Type} {hash : K → BitVec c.w} {t t' : Trie c K V} {reduce : R → R → R} {e r : R}
      {op : MapTransform R (K → V → MapTransformResult V R)} {par : Par} (h : Held c hash t)
      (hr : t.transform reduce e op par = .ok (t', r)) : Held c hash t'
  | transmute {K V S X R : Type} {hash : K → BitVec c.w} {hash' : S → BitVec c.w} {t : Trie c K V}
      {t' : Trie c S X} {reduce : R → R → R} {e r : R} {f : K → V → MapTransmuteResult S X R}
      (h : Held c hash t) (hf : ∀ k v k' v' r, f k v = .transmuted k' v' r → hash' k' = hash k)
      (hr : t.transmute reduce e (.generic f) = .ok (t', r)) : Held c hash' t'

end HT
