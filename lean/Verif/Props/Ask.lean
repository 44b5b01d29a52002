import Verif.SameNode
import Verif.Props.Joint
/-!
# Property C61: the joint functions compare only keys of equal hash

`x` is how the keys of the two maps are hashed and compared (the trait bounds `PartialEq` and `HasherBv` of the joint
functions); `y` is any other way of doing it.  The maps were made with the hashes of `x` and lawful keys; nothing is
assumed of `y`, nor of `==` *between* the two key types of `x`, nor of the operations (the contract of the unsafe
functions is not needed either).
-/
namespace HT

variable {K V L W S X R : Type} {c : Cfg}

/-- `x` and `y` hash the keys of the two maps alike, and answer alike to "are these two keys equal?", asked about a key
    of the left and a key of the right map *of equal hash*. -/
def SameOn (x y : Cross c K L) (as : List (K × V)) (bs : List (L × W)) : Prop :=
  (∀ a ∈ as, y.hash a.1 = x.hash a.1) ∧ (∀ b ∈ bs, y.hash' b.1 = x.hash' b.1) ∧
  ∀ a ∈ as, ∀ b ∈ bs, x.hash a.1 = x.hash' b.1 → y.eq a.1 b.1 = x.eq a.1 b.1 ∧ y.eq' b.1 a.1 = x.eq' b.1 a.1

/-- The same in the form used for nodes. -/
theorem SameOn.same {x y : Cross c K L} {as : List (K × V)} {bs : List (L × W)} (h : SameOn x y as bs) :
    x.Same y (fun k => ∃ v, (k, v) ∈ as) (fun l => ∃ w, (l, w) ∈ bs) where
  hash := fun _ ⟨_, hk⟩ => h.1 _ hk
  hash' := fun _ ⟨_, hl⟩ => h.2.1 _ hl
  eq := fun _ _ ⟨_, hk⟩ ⟨_, hl⟩ e => (h.2.2 _ hk _ hl e).1
  eq' := fun _ _ ⟨_, hk⟩ ⟨_, hl⟩ e => (h.2.2 _ hk _ hl e).2

theorem Reach.grouped {_ : BEq K} {hash : K → BitVec c.w} {t : Trie c K V} (ht : Reach c hash t) :
    t.root.Grouped hash (fun k => ∃ v, (k, v) ∈ t.visit) :=
  Node.WF.grouped ht.valid fun e he => ⟨e.2, he⟩

variable (reduce : R → R → R) (e : R) (par : Par)

/-- C61 for `transform_with_transmuted`: the outcome (map and reduction, panic or divergence) is the same. -/
theorem C61_transform_with_transmuted [BEq K] [BEq L] {x y : Cross c K L} {t : Trie c K V} (ht : Reach c x.hash t)
    {u : Trie c L W} (hu : Reach c x.hash' u) (h : SameOn x y t.visit u.visit) (ops : TwmOps K V L W R) :
    Trie.twm y reduce e ops par t u = Trie.twm x reduce e ops par t u := by
  unfold Trie.twm
  rw [Node.twm_same reduce e ops par h.same _ ht.grouped _ hu.grouped]

/-- C61 for `transmute_with_transformed`. -/
theorem C61_transmute_with_transformed [BEq K] [BEq L] {x y : Cross c K L} {t : Trie c K V} (ht : Reach c x.hash t)
    {u : Trie c L W} (hu : Reach c x.hash' u) (h : SameOn x y t.visit u.visit) (ops : MwtOps K V L W R) :
    Trie.mwt y reduce e ops par t u = Trie.mwt x reduce e ops par t u := by
  unfold Trie.mwt
  rw [Node.mwt_same reduce e ops par h.same _ ht.grouped _ hu.grouped]

/-- C61 for `transmute_with_transmuted`. -/
theorem C61_transmute_with_transmuted [BEq K] [BEq L] {x y : Cross c K L} {t : Trie c K V} (ht : Reach c x.hash t)
    {u : Trie c L W} (hu : Reach c x.hash' u) (h : SameOn x y t.visit u.visit) (ops : MwmOps K V L W S X R) :
    Trie.mwm y reduce e ops t u = Trie.mwm x reduce e ops t u := by
  unfold Trie.mwm
  rw [Node.mwm_same reduce e ops h.same _ ht.grouped _ hu.grouped]

/-- C61 for `transform_with_transformed` (one key type): `i` and `j` are two equalities, `f` and `g` two hashes. -/
theorem C61_transform_with_transformed {i j : BEq K} {f g : K → BitVec c.w} {t u : Trie c K V}
    (ht : @Reach c K V i f t) (hu : @Reach c K V i f u) (hl : ∀ a ∈ t.visit, g a.1 = f a.1)
    (hr : ∀ b ∈ u.visit, g b.1 = f b.1)
    (h : ∀ a ∈ t.visit, ∀ b ∈ u.visit, f a.1 = f b.1 →
      j.beq a.1 b.1 = i.beq a.1 b.1 ∧ j.beq b.1 a.1 = i.beq b.1 a.1) (ops : TwtOps K V R) :
    @Trie.twt K V R c reduce e j g ops par t u = @Trie.twt K V R c reduce e i f ops par t u := by
  unfold Trie.twt
  have h' : SameOn (Cross.of i f) (Cross.of j g) t.visit u.visit := ⟨hl, hr, h⟩
  rw [Node.twt_same reduce e ops par h'.same _ (Reach.grouped ht) _ (Reach.grouped hu)]

/-- Equality of keys of equal hash. -/
def Cross.tight (x : Cross c K L) : Cross c K L :=
  ⟨x.hash, x.hash', fun k l => decide (x.hash k = x.hash' l) && x.eq k l,
    fun l k => decide (x.hash k = x.hash' l) && x.eq' l k⟩

theorem Cross.tight_same (x : Cross c K L) (as : List (K × V)) (bs : List (L × W)) : SameOn x x.tight as bs :=
  ⟨fun _ _ => rfl, fun _ _ => rfl, fun a _ b _ h => by simp [Cross.tight, h]⟩

/-- C61, consequence for C24: `==` between the two key types need not respect the hashes.  Keys of different hash then
    count as different, whatever `==` says, and with that reading the result is right. -/
theorem C61_unlike_transform_with_transmuted [BEq K] [BEq L] {x : Cross c K L} (laws : CrossLaws x.tight)
    {t : Trie c K V} (ht : Reach c x.hash t) {u : Trie c L W} (hu : Reach c x.hash' u) {ops : TwmOps K V L W R}
    (con : ops.Contract x.tight) {t' : Trie c K V} {r : R} (hr : Trie.twm x reduce e ops par t u = .ok (t', r)) :
    t'.visit.Perm ((jointCases (fun a b => decide (x.hash a.1 = x.hash' b.1) && x.eq a.1 b.1)
      t.visit u.visit).filterMap ops.out) := by
  rw [← C61_transform_with_transmuted reduce e par ht hu (x.tight_same _ _)] at hr
  exact (C24_transform_with_transmuted laws ht hu con reduce e par hr).2.1

/-- The same for C25. -/
theorem C61_unlike_transmute_with_transformed [BEq K] [BEq L] {x : Cross c K L} (laws : CrossLaws x.tight)
    {t : Trie c K V} (ht : Reach c x.hash t) {u : Trie c L W} (hu : Reach c x.hash' u) {ops : MwtOps K V L W R}
    (con : ops.Contract x.tight) {t' : Trie c L W} {r : R} (hr : Trie.mwt x reduce e ops par t u = .ok (t', r)) :
    t'.visit.Perm ((jointCases (fun a b => decide (x.hash a.1 = x.hash' b.1) && x.eq a.1 b.1)
      t.visit u.visit).filterMap ops.out) := by
  rw [← C61_transmute_with_transformed reduce e par ht hu (x.tight_same _ _)] at hr
  exact (C25_transmute_with_transformed laws ht hu con reduce e par hr).2.1

/-- The same for C26. -/
theorem C61_unlike_transmute_with_transmuted [BEq K] [BEq L] [BEq S] {x : Cross c K L} (laws : CrossLaws x.tight)
    {hashS : S → BitVec c.w} (lawsS : KeyLaws hashS)
    {t : Trie c K V} (ht : Reach c x.hash t) {u : Trie c L W} (hu : Reach c x.hash' u) {ops : MwmOps K V L W S X R}
    (con : ops.Contract x.tight hashS) {t' : Trie c S X} {r : R} (hr : Trie.mwm x reduce e ops t u = .ok (t', r)) :
    t'.visit.Perm ((jointCases (fun a b => decide (x.hash a.1 = x.hash' b.1) && x.eq a.1 b.1)
      t.visit u.visit).filterMap ops.out) := by
  rw [← C61_transmute_with_transmuted reduce e ht hu (x.tight_same _ _)] at hr
  exact (C26_transmute_with_transmuted laws lawsS ht hu con reduce e hr).2.2.2.2.2.1

/-! ### Non-vacuity -/

/-- Keys are compared by their last digit only; the hash is that of `Ex.cross` (made from the other digits). -/
def Ex.lastDigit : Cross Ex.c8 Ex.Tk Ex.Num :=
  ⟨Ex.cross.hash, Ex.cross.hash', fun k l => k.id % 10 == l.n % 10, fun l k => l.n % 10 == k.id % 10⟩

/-- Two maps with collisions and with entries whose last digits agree but whose hashes do not: the two comparisons
    agree on keys of equal hash and disagree elsewhere. -/
example : ∃ (t : Trie Ex.c8 Ex.Tk Nat) (u : Trie Ex.c8 Ex.Num Nat), Reach Ex.c8 Ex.cross.hash t ∧
    Reach Ex.c8 Ex.cross.hash' u ∧ SameOn Ex.cross Ex.lastDigit t.visit u.visit ∧
    (∃ a ∈ t.visit, ∃ b ∈ u.visit, Ex.lastDigit.eq a.1 b.1 ≠ Ex.cross.eq a.1 b.1) ∧ t.size = 6 ∧ u.size = 6 := by
  obtain ⟨t, u, ht, hu, h⟩ := exists_reach2 (c := Ex.c8) Ex.exLaws Ex.numLaws Ex.entries Ex.rightNum
    (fun (t : Trie Ex.c8 Ex.Tk Nat) (u : Trie Ex.c8 Ex.Num Nat) =>
      (t.visit.all fun a => u.visit.all fun b => decide (Ex.cross.hash a.1 = Ex.cross.hash' b.1 →
        Ex.lastDigit.eq a.1 b.1 = Ex.cross.eq a.1 b.1 ∧ Ex.lastDigit.eq' b.1 a.1 = Ex.cross.eq' b.1 a.1)) &&
      (t.visit.any fun a => u.visit.any fun b => decide (Ex.lastDigit.eq a.1 b.1 ≠ Ex.cross.eq a.1 b.1)) &&
      decide (t.size = 6 ∧ u.size = 6)) (by decide +kernel)
  simp only [Bool.and_eq_true, List.all_eq_true, List.any_eq_true, decide_eq_true_eq] at h
  exact ⟨t, u, ht, hu, ⟨fun _ _ => rfl, fun _ _ => rfl, h.1.1⟩, h.1.2, h.2⟩

/-- A comparison that does not respect hashes: it calls any two keys of different hash equal.  Among keys of equal
    hash it is that of `Ex.cross`. -/
def Ex.wild : Cross Ex.c8 Ex.Tk Ex.Num :=
  ⟨Ex.cross.hash, Ex.cross.hash', fun k l => k.id == l.n || decide (Ex.cross.hash k ≠ Ex.cross.hash' l),
    fun l k => l.n == k.id || decide (Ex.cross.hash k ≠ Ex.cross.hash' l)⟩

theorem Ex.wild_tight : Ex.wild.tight = Ex.cross := by
  have hh : ∀ (k : Ex.Tk) (l : Ex.Num), k.id = l.n → Ex.cross.hash k = Ex.cross.hash' l := fun k l h =>
    Ex.crossLaws.hash k l (by simp [Ex.cross, h])
  refine congr (congrArg (Cross.mk Ex.cross.hash Ex.cross.hash') ?_) ?_
  · funext k l
    show (decide (Ex.cross.hash k = Ex.cross.hash' l) && (k.id == l.n || decide (Ex.cross.hash k ≠ Ex.cross.hash' l))) =
      (k.id == l.n)
    by_cases h : k.id = l.n
    · simp [h, hh k l h]
    · by_cases h2 : Ex.cross.hash k = Ex.cross.hash' l <;> simp [h, h2]
  · funext l k
    show (decide (Ex.cross.hash k = Ex.cross.hash' l) && (l.n == k.id || decide (Ex.cross.hash k ≠ Ex.cross.hash' l))) =
      (l.n == k.id)
    by_cases h : l.n = k.id
    · simp [h, hh k l h.symm]
    · by_cases h2 : Ex.cross.hash k = Ex.cross.hash' l <;> simp [h, h2]

/-- The hypotheses of the consequence for C24 hold of a comparison that says "equal" of any two keys of different
    hash, and the call returns. -/
example : CrossLaws Ex.wild.tight ∧ Ex.twmOps.Contract Ex.wild.tight ∧
    (∃ k l, Ex.wild.eq k l = true ∧ Ex.wild.hash k ≠ Ex.wild.hash' l) ∧
    ∃ (t : Trie Ex.c8 Ex.Tk Nat) (u : Trie Ex.c8 Ex.Num Nat), Reach Ex.c8 Ex.wild.hash t ∧
    Reach Ex.c8 Ex.wild.hash' u ∧
    ((Trie.twm Ex.wild (· ++ ·) [] Ex.twmOps .sequential t u).test fun y => decide (y.1.size = 8)) = true := by
  refine ⟨Ex.wild_tight ▸ Ex.crossLaws, Ex.wild_tight ▸ Ex.twmOps_contract, ⟨⟨5, 0⟩, ⟨25⟩, ?_, ?_⟩, ?_⟩
  · decide
  · decide
  · exact exists_reach2 Ex.exLaws Ex.numLaws Ex.entries Ex.rightNum _ (by decide +kernel)

end HT
