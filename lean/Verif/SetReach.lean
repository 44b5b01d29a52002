import Verif.SetLemmas
import Verif.JointFind
/-! # The sets a program can hold -/
namespace HT

/-- The sets that can be obtained from the set API, in any order and mixture of calls, with the same
    conditions as `Reach`. -/
inductive SReach (c : Cfg) : {K : Type} → [BEq K] → (K → BitVec c.w) → HSet c K → Prop
  | new {K : Type} [BEq K] {hash : K → BitVec c.w} (laws : KeyLaws hash) :
      SReach c hash (HSet.new c : HSet c K)
  | insert {K : Type} [BEq K] {hash : K → BitVec c.w} {s s' : HSet c K} {q : K → Bool} {k : K}
      {replace : Bool} {ptr : K} {prev : Option K}
      (h : SReach c hash s) (hq : Query hash q (hash k)) (hk : q k = true)
      (hr : s.insertQ hash q (hash k) k replace = .ok (.ok (s', ptr, prev))) : SReach c hash s'
  | remove {K : Type} [BEq K] {hash : K → BitVec c.w} {s s' : HSet c K} {q : K → Bool}
      {h : BitVec c.w} {k : K} (hs : SReach c hash s) (hq : Query hash q h)
      (hr : s.removeQ q h = .ok (some (s', k))) : SReach c hash s'
  | transform {K R : Type} [BEq K] {hash : K → BitVec c.w} {s s' : HSet c K} {reduce : R → R → R}
      {e r : R} {op : SetTransform R (K → SetTransformResult R)} {par : Par}
      (h : SReach c hash s) (hr : s.transform reduce e op par = .ok (s', r)) : SReach c hash s'
  | transmute {K S R : Type} [BEq K] [BEq S] {hash : K → BitVec c.w} {hash' : S → BitVec c.w}
      {s : HSet c K} {s' : HSet c S} {reduce : R → R → R} {e r : R}
      {op : SetTransmute R (K → SetTransmuteResult S R)}
      (h : SReach c hash s) (laws : KeyLaws hash') (km : op.KeyMap hash hash')
      (hr : s.transmute reduce e op = .ok (s', r)) : SReach c hash' s'
  | transformWithTransmuted {K L R : Type} [BEq K] [BEq L] {x : Cross c K L} {s s' : HSet c K}
      {t : HSet c L} {reduce : R → R → R} {e r : R} {both : SetTransform R (K → L → SetTransformResult R)}
      {left : SetTransform R (K → SetTransformResult R)} {right : SetTransmute R (L → SetTransmuteResult K R)}
      {par : Par} (hs : SReach c x.hash s) (ht : SReach c x.hash' t) (laws : CrossLaws x) (con : right.Right x)
      (hr : HSet.twm reduce e x both left right par s t = .ok (s', r)) : SReach c x.hash s'
  | transmuteWithTransformed {K L R : Type} [BEq K] [BEq L] {x : Cross c K L} {s : HSet c K}
      {t s' : HSet c L} {reduce : R → R → R} {e r : R} {both : SetTransform R (K → L → SetTransformResult R)}
      {left : SetTransmute R (K → SetTransmuteResult L R)} {right : SetTransform R (L → SetTransformResult R)}
      {par : Par} (hs : SReach c x.hash s) (ht : SReach c x.hash' t) (laws : CrossLaws x) (con : left.Left x)
      (hr : HSet.mwt reduce e x both left right par s t = .ok (s', r)) : SReach c x.hash' s'
  | transmuteWithTransmuted {K L S R : Type} [BEq K] [BEq L] [BEq S] {x : Cross c K L}
      {hash' : S → BitVec c.w} {s : HSet c K} {t : HSet c L} {s' : HSet c S} {reduce : R → R → R} {e r : R}
      {both : SetTransmute R (K → L → SetTransmuteResult S R)} {left : SetTransmute R (K → SetTransmuteResult S R)}
      {right : SetTransmute R (L → SetTransmuteResult S R)}
      (hs : SReach c x.hash s) (ht : SReach c x.hash' t) (laws : CrossLaws x) (laws' : KeyLaws hash')
      (con : SetMwmContract x hash' both left right)
      (hr : HSet.mwm reduce e x both left right s t = .ok (s', r)) : SReach c hash' s'
  | transformWithTransformed {K R : Type} [BEq K] {hash : K → BitVec c.w} {s t s' : HSet c K}
      {reduce : R → R → R} {e r : R} {both : SetJointTransform R (K → K → SetJointTransformResult R)}
      {left right : SetTransform R (K → SetTransformResult R)} {par : Par}
      (hs : SReach c hash s) (ht : SReach c hash t)
      (tame : TwtOps.Tame ⟨both.toMap, left.toMap, right.toMap⟩ hash s.set.visit t.set.visit)
      (hr : HSet.twt reduce e hash both left right par s t = .ok (s', r)) : SReach c hash s'

variable {c : Cfg} {K L S R : Type}

theorem HSet.wrap_ok {r : Res (Trie c K Unit × R)} {s : HSet c K} {y : R} :
    HSet.wrap r = .ok (s, y) ↔ r = .ok (s.set, y) := by
  cases r with
  | ok p => obtain ⟨t, z⟩ := p; obtain ⟨t'⟩ := s; simp [HSet.wrap]
  | _ => simp [HSet.wrap]

@[simp] theorem SetTransform.toMap_closure (op : SetTransform R (K → SetTransformResult R)) (k : K) (u : Unit) :
    op.toMap.closure k u = (op.closure k).toMap := by
  rw [MapTransform.closure_eq, SetTransform.closure_eq, SetTransform.toMap_call]
@[simp] theorem SetTransmute.toMap_closure (op : SetTransmute R (K → SetTransmuteResult S R)) (k : K) (u : Unit) :
    op.toMap.closure k u = (op.closure k).toMap := by
  rw [MapTransmute.closure_eq, SetTransmute.closure_eq, SetTransmute.toMap_call]
@[simp] theorem SetTransform.toMap2_closure (op : SetTransform R (K → L → SetTransformResult R)) (k : K) (u : Unit)
    (l : L) (v : Unit) : op.toMap2.closure2 k u l v = (op.closure2 k l).toMap := by
  rw [MapTransform.closure2_eq, SetTransform.closure2_eq]; rfl
@[simp] theorem SetTransmute.toMap2_closure (op : SetTransmute R (K → L → SetTransmuteResult S R)) (k : K) (u : Unit)
    (l : L) (v : Unit) : op.toMap2.closure2 k u l v = (op.closure2 k l).toMap := by
  rw [MapTransmute.closure2_eq, SetTransmute.closure2_eq]; rfl
@[simp] theorem SetJointTransform.toMap_closure (op : SetJointTransform R (K → K → SetJointTransformResult R))
    (k l : K) (u v : Unit) : op.toMap.closure k u l v = (op.closure k l).toMap := by
  rw [MapJointTransform.closure_eq, SetJointTransform.closure_eq, SetJointTransform.toMap_call]

theorem SetTransmute.KeyMap.map [BEq K] [BEq S] {hash : K → BitVec c.w} {hash' : S → BitVec c.w}
    {op : SetTransmute R (K → SetTransmuteResult S R)} (h : op.KeyMap hash hash') :
    HT.KeyMap hash hash' op.toMap.closure where
  hash := by
    intro k v k' v' r hf
    rw [MapTransmute.closure_eq, SetTransmute.toMap_call] at hf
    cases ho : op.call k <;> simp [ho, SetTransmuteResult.toMap] at hf
    exact h.hash k k' r (by rw [SetTransmute.closure_eq, ho, hf.1, hf.2])
  inj := by
    intro k v k' v' r l w l' w' s hf hg heq
    rw [MapTransmute.closure_eq, SetTransmute.toMap_call] at hf hg
    cases ho : op.call k <;> simp [ho, SetTransmuteResult.toMap] at hf
    cases ho' : op.call l <;> simp [ho', SetTransmuteResult.toMap] at hg
    exact h.inj k k' r l l' s (by rw [SetTransmute.closure_eq, ho, hf.1, hf.2]) (by rw [SetTransmute.closure_eq, ho', hg.1, hg.2]) heq

theorem SetTransmute.Right.map {x : Cross c K L} {right : SetTransmute R (L → SetTransmuteResult K R)}
    (h : right.Right x) {both : MapTransform R (K → Unit → L → Unit → MapTransformResult Unit R)}
    {left : MapTransform R (K → Unit → MapTransformResult Unit R)} :
    TwmOps.Contract x ⟨both, left, right.toMap⟩ := by
  intro l w k v r hf
  simp only [MapTransmute.closure_eq, SetTransmute.toMap_call] at hf
  cases ho : right.call l <;> simp [ho, SetTransmuteResult.toMap] at hf
  exact h l k r (by rw [SetTransmute.closure_eq, ho, hf.1, hf.2])

theorem SetTransmute.Left.map {x : Cross c K L} {left : SetTransmute R (K → SetTransmuteResult L R)}
    (h : left.Left x) {both : MapTransform R (K → Unit → L → Unit → MapTransformResult Unit R)}
    {right : MapTransform R (L → Unit → MapTransformResult Unit R)} :
    MwtOps.Contract x ⟨both, left.toMap, right⟩ := by
  intro k v l w r hf
  simp only [MapTransmute.closure_eq, SetTransmute.toMap_call] at hf
  cases ho : left.call k <;> simp [ho, SetTransmuteResult.toMap] at hf
  exact h k l r (by rw [SetTransmute.closure_eq, ho, hf.1, hf.2])

theorem SetTransmuteResult.toMap_entry (y : SetTransmuteResult S R) :
    y.toMap.entry = y.key?.map fun s => (s, ()) := by cases y <;> rfl
theorem SetTransmuteResult.toMap_red (y : SetTransmuteResult S R) : y.toMap.red = y.red := by cases y <;> rfl
theorem SetTransformResult.toMap_entry (y : SetTransformResult R) (k : K) :
    (y.toMap : MapTransformResult Unit R).entry (k, ()) = if y.keep then some (k, ()) else none := by cases y <;> rfl
theorem SetTransformResult.toMap_red (y : SetTransformResult R) :
    (y.toMap : MapTransformResult Unit R).red = y.red := by cases y <;> rfl

/-- The case about keys. -/
def Case.keys : Case (K × Unit) (L × Unit) → Case K L
  | .left a => .left a.1
  | .right b => .right b.1
  | .both a b => .both a.1 b.1

theorem Case.keys_unit (p : Case (K × Unit) (L × Unit)) : p.keys.unit = p := by cases p <;> rfl

theorem setOut_toMap (both : SetTransmute R (K → L → SetTransmuteResult S R))
    (left : SetTransmute R (K → SetTransmuteResult S R)) (right : SetTransmute R (L → SetTransmuteResult S R))
    (p : Case (K × Unit) (L × Unit)) :
    MwmOps.out ⟨both.toMap2, left.toMap, right.toMap⟩ p = (setOut both left right p.keys).map fun s => (s, ()) := by
  cases p <;> simp [MwmOps.out, setOut, Case.keys, SetTransmuteResult.toMap_entry, MapTransmute.closure_eq,
    MapTransmute.closure2_eq, SetTransmute.closure_eq, SetTransmute.closure2_eq]

theorem SetMwmContract.map [BEq K] [BEq L] [BEq S] {x : Cross c K L} {hash' : S → BitVec c.w}
    {both : SetTransmute R (K → L → SetTransmuteResult S R)} {left : SetTransmute R (K → SetTransmuteResult S R)}
    {right : SetTransmute R (L → SetTransmuteResult S R)} (h : SetMwmContract x hash' both left right) :
    MwmOps.Contract x hash' ⟨both.toMap2, left.toMap, right.toMap⟩ where
  hash := by
    intro p e hm ho
    rw [setOut_toMap, Option.map_eq_some_iff] at ho
    obtain ⟨s, hs, rfl⟩ := ho
    have := h.hash p.keys s (by rw [p.keys_unit]; exact hm) hs
    rwa [p.keys_unit] at this
  inj := by
    intro p q e e' hm hm' ho ho' heq
    rw [setOut_toMap, Option.map_eq_some_iff] at ho ho'
    obtain ⟨s, hs, rfl⟩ := ho
    obtain ⟨s', hs', rfl⟩ := ho'
    have := h.inj p.keys q.keys s s' (by rw [p.keys_unit]; exact hm) (by rw [q.keys_unit]; exact hm') hs hs' heq
    rwa [p.keys_unit, q.keys_unit] at this

/-- The map inside a set obtained from the set API is obtained from the map API. -/
theorem SReach.map [BEq K] {hash : K → BitVec c.w} {s : HSet c K} (h : SReach c hash s) : Reach c hash s.set := by
  induction h with
  | new laws => exact .new laws
  | insert h hq hk hr ih =>
    simp only [HSet.insertQ, Res.bind_eq_ok] at hr
    obtain ⟨r, h1, h2⟩ := hr
    cases r with
    | error e => simp at h2
    | ok r =>
      obtain ⟨t', ptr, prev⟩ := r
      simp only [Res.ok.injEq, Except.ok.injEq, Prod.mk.injEq] at h2
      obtain ⟨rfl, _⟩ := h2
      exact .insert ih hq hk h1
  | remove h hq hr ih =>
    simp only [HSet.removeQ, Res.bind_eq_ok] at hr
    obtain ⟨r, h1, h2⟩ := hr
    cases r with
    | none => simp at h2
    | some r =>
      obtain ⟨t', e⟩ := r
      simp only [Res.ok.injEq, Option.map_some, Option.some.injEq, Prod.mk.injEq] at h2
      obtain ⟨rfl, _⟩ := h2
      exact .remove ih hq h1
  | transform h hr ih => exact .transform ih (HSet.wrap_ok.1 hr)
  | transmute h laws km hr ih => exact .transmute ih laws km.map (HSet.wrap_ok.1 hr)
  | transformWithTransmuted hs ht laws con hr ih ih' =>
    exact .transformWithTransmuted ih ih' laws con.map (HSet.wrap_ok.1 hr)
  | transmuteWithTransformed hs ht laws con hr ih ih' =>
    exact .transmuteWithTransformed ih ih' laws con.map (HSet.wrap_ok.1 hr)
  | transmuteWithTransmuted hs ht laws laws' con hr ih ih' =>
    exact .transmuteWithTransmuted ih ih' laws laws' con.map (HSet.wrap_ok.1 hr)
  | transformWithTransformed hs ht tame hr ih ih' =>
    exact .transformWithTransformed ih ih' tame (HSet.wrap_ok.1 hr)

section
variable [BEq K] {hash : K → BitVec c.w} {s : HSet c K}

theorem SReach.laws (h : SReach c hash s) : KeyLaws hash := h.map.laws

theorem HSet.find_eq (s : HSet c K) (k : K) :
    s.find hash k = (s.set.find hash k).mapOk (Option.map Prod.fst) := by
  simp only [HSet.find, HSet.findQ, Trie.find]
  cases s.set.findQ (fun x => x == k) (hash k) <;> rfl

/-- What the set finds is what its map finds. -/
theorem HSet.find_iff (k : K) (o : Option K) :
    s.find hash k = .ok o ↔ s.set.find hash k = .ok (o.map fun k => (k, ())) := by
  rw [HSet.find_eq]
  cases s.set.find hash k with
  | ok r => cases r <;> cases o <;> simp [Res.mapOk, Prod.ext_iff]
  | _ => simp [Res.mapOk]

theorem HSet.findAcross_iff {x : Cross c K L} {t : HSet c L} (k : K) (o : Option L) :
    t.findAcross x k = .ok o ↔ t.set.findAcross x k = .ok (o.map fun l => (l, ())) := by
  simp only [HSet.findAcross, HSet.findQ, Trie.findAcross]
  cases t.set.findQ (fun l => x.eq' l k) (x.hash k) with
  | ok r => cases r <;> cases o <;> simp [Prod.ext_iff]
  | _ => simp

theorem SReach.size (h : SReach c hash s) : s.size = s.visit.length := by
  rw [HSet.size, h.map.size, HSet.visit, List.length_map]

theorem SReach.find (h : SReach c hash s) (k : K) : s.find hash k = .ok (s.visit.find? (· == k)) := by
  rw [HSet.find_iff, h.map.find, HSet.visit, find?_map_fst]
  cases s.set.visit.find? (fun e => e.1 == k) with
  | none => rfl
  | some e => rfl

end
end HT
