import Verif.EffSimList
import Verif.ArcTransform
import Verif.JointLoop
/-! # The loops over the children of branch nodes, with closure calls and addresses -/
namespace HT

variable {K V L W S X R : Type} {n : Nat} {Q : Type} {A : Q → Type} {h : (q : Q) → A q}

/-! ### Recursion on nodes -/

theorem ANode.foldAll_eq {β : Type} (fS : ASNode K V → Nat → β) (fL : ALNode K V → Nat → β)
    (fC : Nat → BitVec n → List (ANode n K V × β) → Nat → Nat → β) (ms : List (ANode n K V)) (d : Nat) :
    ANode.foldAll fS fL fC ms d = ms.map fun m => (m, ANode.fold fS fL fC m d) := by
  induction ms with
  | nil => rfl
  | cons m ms ih => rw [ANode.foldAll, ih]; rfl

/-- Induction on nodes and depth. -/
theorem ANode.recDepth {motive : ANode n K V → Nat → Prop} (hS : ∀ s d, motive (.S s) d) (hL : ∀ l d, motive (.L l) d)
    (hC : ∀ a bits vs extra d, (∀ m ∈ vs, motive m (d + 1)) → motive (.C a bits vs extra) d) :
    ∀ m d, motive m d
  | .S s, d => hS s d
  | .L l, d => hL l d
  | .C a bits vs extra, d => hC a bits vs extra d fun m hm => ANode.recDepth hS hL hC m (d + 1)
termination_by m => sizeOf m
decreasing_by
  have := List.sizeOf_lt_of_mem hm
  simp only [ANode.C.sizeOf_spec]
  omega

/-! ### The loop -/

/-- What an iteration decides. -/
inductive ItemQ (U : ANode n K V → Prop) : AItem n K V R → Item n K V R → Prop
  | skip : ItemQ U .skip .skip
  | put {m : ANode n K V} {m' : Node n K V} (r : R) (kl kr : Bool) : InN U m m' →
      ItemQ U (.put m r kl kr) (.put m' r kl kr)
  | drop (r : R) (kl kr : Bool) : ItemQ U (.drop r kl kr) (.drop r kl kr)

/-- The variables of the loop. -/
structure AccQ (U : ANode n K V → Prop) (a : AAcc n K V R) (b : Acc n K V R) : Prop where
  size : a.size = b.size
  bits : a.bits = b.bits
  values : a.values.map ANode.erase = b.values
  ul : a.ul = b.ul
  ur : a.ur = b.ur
  red : a.red = b.red
  mem : ∀ m ∈ a.values, U m

theorem AccQ.toP {U : ANode n K V → Prop} {s : Nat} (heap : Heap U s) {a : AAcc n K V R} {b : Acc n K V R}
    (q : AccQ U a b) : AccP s s U s a b :=
  ⟨q.size, q.bits, q.values, q.ul, q.ur, q.red, fun m hm => ⟨q.mem m hm, .inl (heap.lt m (q.mem m hm))⟩, fun _ => rfl⟩

theorem AccP.toQ {U : ANode n K V → Prop} {addr s0 s : Nat} {a : AAcc n K V R} {b : Acc n K V R}
    (q : AccP addr s0 U s a b) : AccQ U a b :=
  ⟨q.size, q.bits, q.values, q.ul, q.ur, q.red, fun m hm => (q.mem m hm).1⟩

theorem AccQ.mono {U U' : ANode n K V → Prop} (hs : ∀ z, U z → U' z) {a : AAcc n K V R} {b : Acc n K V R}
    (q : AccQ U a b) : AccQ U' a b := { q with mem := fun m hm => hs _ (q.mem m hm) }

theorem AccQ.init (U : ANode n K V → Prop) (e : R) : AccQ U (AAcc.init e : AAcc n K V R) (Acc.init e) :=
  ⟨rfl, rfl, rfl, rfl, rfl, rfl, by simp [AAcc.init]⟩

theorem ItemQ.toP {U : ANode n K V → Prop} {s : Nat} (heap : Heap U s) {a : AItem n K V R} {b : Item n K V R}
    (q : ItemQ U a b) : ItemP s s U s a b := by
  cases q with
  | skip => exact .skip rfl
  | put r kl kr hm =>
    obtain ⟨hm, rfl⟩ := hm
    exact .put _ r kl kr ⟨hm, .inl (heap.lt _ hm)⟩ (fun _ => rfl)
  | drop r kl kr => exact .drop r kl kr (fun _ => rfl)

theorem AAcc.step_simQ (reduce : R → R → R) {U : ANode n K V → Prop} {s : Nat} (heap : Heap U s) {a : AAcc n K V R}
    {b : Acc n K V R} (q : AccQ U a b) (i : Nat) {it : AItem n K V R} {it' : Item n K V R} (I : ItemQ U it it') :
    Sim U s (Al.lift (a.step reduce i it)) (b.step reduce i it') (fun U' _ => AccQ U') :=
  Sim.mono (AAcc.step_sim reduce heap (Nat.le_refl _) (Nat.le_refl _) (fun _ hz => hz) (q.toP heap) i (I.toP heap))
    fun _ _ _ _ _ _ _ hp => hp.toQ

theorem AAcc.loopE_sim (reduce : R → R → R) {U0 : ANode n K V → Prop} {item : Nat → Prog Q A (AItem n K V R)}
    {item' : Nat → Res (Item n K V R)}
    (hitem : ∀ i U s, (∀ z, U0 z → U z) → Heap U s → PSim h U s (item i) (item' i) (fun U' => ItemQ U'))
    (is : List Nat) : ∀ (U : ANode n K V → Prop) (s : Nat) (a : AAcc n K V R) (b : Acc n K V R),
      (∀ z, U0 z → U z) → Heap U s → AccQ U a b →
      PSim h U s (AAcc.loopE reduce item is a) (Acc.loop reduce item' is b) (fun U' => AccQ U') := by
  induction is with
  | nil => intro U s a b _ heap q; exact PSim.pure heap q
  | cons i is ih =>
    intro U s a b hsub heap q
    refine PSim.bind (hitem i U s hsub heap) fun U1 s1 it it' hsub1 heap1 I => ?_
    refine PSim.bind (PSim.al (AAcc.step_simQ reduce heap1 (q.mono hsub1) i I)) fun U2 s2 a' b' hsub2 heap2 q' => ?_
    exact ih U2 s2 a' b' (fun z hz => hsub2 z (hsub1 z (hsub z hz))) heap2 q'

theorem AAcc.gatherE_sim (reduce : R → R → R) (e : R) (par : Par) {U : ANode n K V → Prop} {s : Nat}
    (heap : Heap U s) {item : Nat → Prog Q A (AItem n K V R)} {item' : Nat → Res (Item n K V R)}
    (hitem : ∀ i U' s', (∀ z, U z → U' z) → Heap U' s' → PSim h U' s' (item i) (item' i) (fun U'' => ItemQ U'')) :
    PSim h U s (AAcc.gatherE reduce e par item) (Acc.gather reduce e par item') (fun U' => AccQ U') := by
  cases par with
  | sequential => exact AAcc.loopE_sim reduce hitem _ U s _ _ (fun _ hz => hz) heap (.init ..)
  | middleIndex =>
    refine PSim.bind (AAcc.loopE_sim reduce hitem _ U s _ _ (fun _ hz => hz) heap (.init ..))
      fun U1 s1 l l' hsub1 heap1 q1 => ?_
    refine PSim.bind (AAcc.loopE_sim reduce hitem _ U1 s1 _ _ hsub1 heap1 (.init ..))
      fun U2 s2 r r' hsub2 heap2 q2 => ?_
    refine PSim.al ?_
    simp only [AAcc.merge, Acc.merge, q1.bits, q2.bits]
    cases Res.unwrapE (bitMerge l'.bits r'.bits) with
    | panic p => exact rfl
    | diverge => exact trivial
    | ok bits =>
      refine Sim.pure heap2 ⟨by simp [q1.size, q2.size], rfl, by simp [q1.values, q2.values],
        by simp [q1.ul, q2.ul], by simp [q1.ur, q2.ur], by simp [q1.red, q2.red], ?_⟩
      intro y hy
      rcases List.mem_append.1 hy with hy | hy
      · exact hsub2 _ (q1.mem y hy)
      · exact q2.mem y hy

/-! ### The ends of the loops -/

section
variable {U : ANode n K V → Prop} {s : Nat} {a : AAcc n K V R} {b : Acc n K V R} (heap : Heap U s) (q : AccQ U a b)
include heap q

theorem TRes.afinish_sim : Sim U s (TRes.afinish a) (TRes.finish b) (fun U' _ => TP (InN U')) := by
  unfold TRes.afinish TRes.finish
  rw [q.ul, q.red]
  split
  · exact Sim.pure heap (.unchanged _)
  · refine Sim.bind (AAcc.pack_sim heap (Nat.le_refl _) (q.toP heap)) ?_
    intro U2 s2 o o' _ _ heap2 P
    cases P with
    | none => exact Sim.pure heap2 (.removed _)
    | some m hm => exact Sim.pure heap2 (.node _ ⟨hm.1, rfl⟩)

theorem XRes.afinish_sim : Sim U s (XRes.afinish a) (XRes.finish b) (fun U' _ => XP (InN U')) := by
  unfold XRes.afinish XRes.finish
  rw [q.red]
  refine Sim.bind (AAcc.pack_sim heap (Nat.le_refl _) (q.toP heap)) ?_
  intro U2 s2 o o' _ _ heap2 P
  cases P with
  | none => exact Sim.pure heap2 (.removed _)
  | some m hm => exact Sim.pure heap2 (.node _ ⟨hm.1, rfl⟩)

theorem XRes.afinishAssert_sim : Sim U s (XRes.afinishAssert a)
    (if b.values.length ≠ countOnes b.bits then .panic .assertion
      else do
        let o ← b.pack
        .ok (XRes.ofOption o b.red)) (fun U' _ => XP (InN U')) := by
  unfold XRes.afinishAssert
  have hl : a.values.length = b.values.length := by rw [← q.values, List.length_map]
  rw [hl, q.bits]
  split
  · exact rfl
  · exact XRes.afinish_sim heap q

theorem JRes.afinish_sim : Sim U s (JRes.afinish a) (JRes.finish b) (fun U' _ => JP (InN U')) := by
  unfold JRes.afinish JRes.finish
  rw [q.ul, q.ur, q.red]
  split
  · split
    · exact Sim.pure heap (.unchangedLR _)
    · exact Sim.pure heap (.unchangedL _)
  · split
    · exact Sim.pure heap (.unchangedR _)
    · refine Sim.bind (AAcc.pack_sim heap (Nat.le_refl _) (q.toP heap)) ?_
      intro U2 s2 o o' _ _ heap2 P
      cases P with
      | none => exact Sim.pure heap2 (.removed _)
      | some m hm => exact Sim.pure heap2 (.node _ ⟨hm.1, rfl⟩)

end

/-! ### The matches on the results -/

/-- A node that may be absent. -/
def InO (U : ANode n K V → Prop) (o : Option (ANode n K V)) (o' : Option (Node n K V)) : Prop :=
  (∀ m ∈ o, U m) ∧ o' = o.map ANode.erase

theorem InO.none {U : ANode n K V → Prop} : InO U none none := ⟨by simp, rfl⟩

theorem InO.some {U : ANode n K V → Prop} {m : ANode n K V} (hm : U m) : InO U (some m) (some m.erase) :=
  ⟨by simpa using hm, rfl⟩

theorem InO.mono {U U' : ANode n K V → Prop} (hs : ∀ z, U z → U' z) {o : Option (ANode n K V)} {o' : Option (Node n K V)}
    (ho : InO U o o') : InO U' o o' := ⟨fun m hm => hs _ (ho.1 m hm), ho.2⟩

theorem InO.unwrap {α β : Type} {U : ANode n K V → Prop} {s : Nat} (heap : Heap U s) {o : Option (ANode n K V)}
    {o' : Option (Node n K V)} (ho : InO U o o') {f : ANode n K V → α} {g : Node n K V → β}
    {P : (ANode n K V → Prop) → α → β → Prop} (hp : ∀ m m', InN U m m' → P U (f m) (g m')) :
    Sim U s (Al.lift (do let m ← Res.unwrap o; .ok (f m))) (do let m ← Res.unwrap o'; .ok (g m)) (fun U' _ => P U') := by
  obtain ⟨h1, rfl⟩ := ho
  cases o with
  | none => exact rfl
  | some m => exact Sim.pure heap (hp _ _ ⟨h1 m rfl, rfl⟩)

section
variable {U : ANode n K V → Prop} {s : Nat} (heap : Heap U s)
include heap

theorem TRes.aitemOpt_sim (keep : Bool) {o : Option (ANode n K V)} {o' : Option (Node n K V)} (ho : InO U o o')
    {a : TRes (ANode n K V) R} {b : TRes (Node n K V) R} (hab : TP (InN U) a b) :
    Sim U s (Al.lift (a.aitemOpt keep o)) (b.itemOpt keep o') (fun U' _ => ItemQ U') := by
  cases hab with
  | unchanged r =>
    exact ho.unwrap heap (P := fun U' => ItemQ U') (f := fun m => .put m r keep keep) (g := fun m => .put m r keep keep)
      fun _ _ hm => .put r keep keep hm
  | node r hm => exact Sim.pure heap (.put r false false hm)
  | removed r => exact Sim.pure heap (.drop r false false)

theorem JRes.aitemOpt_sim {o p : Option (ANode n K V)} {o' p' : Option (Node n K V)} (ho : InO U o o') (hp : InO U p p')
    {a : JRes (ANode n K V) R} {b : JRes (Node n K V) R} (hab : JP (InN U) a b) :
    Sim U s (Al.lift (a.aitemOpt o p)) (b.itemOpt o' p') (fun U' _ => ItemQ U') := by
  cases hab with
  | unchangedLR r =>
    exact ho.unwrap heap (P := fun U' => ItemQ U') (f := fun m => .put m r true true) (g := fun m => .put m r true true)
      fun _ _ hm => .put r _ _ hm
  | unchangedL r =>
    exact ho.unwrap heap (P := fun U' => ItemQ U') (f := fun m => .put m r true false) (g := fun m => .put m r true false)
      fun _ _ hm => .put r _ _ hm
  | unchangedR r =>
    exact hp.unwrap heap (P := fun U' => ItemQ U') (f := fun m => .put m r false true) (g := fun m => .put m r false true)
      fun _ _ hm => .put r _ _ hm
  | node r hm => exact Sim.pure heap (.put r false false hm)
  | removed r => exact Sim.pure heap (.drop r false false)

theorem XRes.aitem_sim {a : XRes (ANode n K V) R} {b : XRes (Node n K V) R} (hab : XP (InN U) a b) :
    Sim U s (Al.lift (.ok a.aitem)) (.ok b.item) (fun U' _ => ItemQ U') := by
  cases hab with
  | node r hm => exact Sim.pure heap (.put r false false hm)
  | removed r => exact Sim.pure heap (.drop r false false)

end

/-! ### A branch node against a list or single node -/

theorem aflatLoop_sim {c : Cfg} {ρ ρ' : Type} (reduce : R → R → R) (e : R) {rightHash rightHash' : BitVec c.w}
    (hk : rightHash' = rightHash) (depth : Nat)
    (bits : BitVec c.n) (extra : Nat) (vs : List (ANode c.n K V)) {U : ANode c.n S X → Prop} {s : Nat} (heap : Heap U s)
    {run : ANode c.n K V → Prog Q A ρ} {run' : Node c.n K V → Res ρ'}
    {elsewhere : ANode c.n K V → Prog Q A ρ} {elsewhere' : Node c.n K V → Res ρ'} {alone : Prog Q A ρ} {alone' : ρ'}
    {item : Option (ANode c.n K V) → ρ → Res (AItem c.n S X R)}
    {item' : Option (Node c.n K V) → ρ' → Res (Item c.n S X R)} (PR : (ANode c.n S X → Prop) → ρ → ρ' → Prop)
    (hrun : ∀ m ∈ vs, ∀ U' s', (∀ z, U z → U' z) → Heap U' s' → PSim h U' s' (run m) (run' m.erase) PR)
    (helse : ∀ m ∈ vs, ∀ U' s', (∀ z, U z → U' z) → Heap U' s' → PSim h U' s' (elsewhere m) (elsewhere' m.erase) PR)
    (halone : ∀ U' s', (∀ z, U z → U' z) → Heap U' s' → PSim h U' s' alone (.ok alone') PR)
    (hitem : ∀ (o : Option (ANode c.n K V)) U' s' a b, (∀ m ∈ o, m ∈ vs) → (∀ z, U z → U' z) → Heap U' s' → PR U' a b →
      Sim U' s' (Al.lift (item o a)) (item' (o.map ANode.erase) b) (fun U'' _ => ItemQ U'')) :
    PSim h U s
      (aflatLoop reduce e rightHash depth ⟨bits, vs.map fun m => (m, run m), extra⟩ elsewhere alone item)
      (flatLoop reduce e rightHash' depth ⟨bits, (vs.map ANode.erase).map fun m => (m, run' m), extra⟩ elsewhere' alone'
        item') (fun U' => AccQ U') := by
  subst hk
  unfold aflatLoop flatLoop
  refine PSim.bindRes fun flag _ => ?_
  refine AAcc.gatherE_sim reduce e .sequential heap fun i U1 s1 hsub1 heap1 => ?_
  rw [List.map_map, Bia.atBitIndex_mapped, Bia.atBitIndex_mapped]
  cases hat : (Bia.mk bits vs extra).atBitIndex i with
  | panic p => exact rfl
  | diverge => exact trivial
  | ok child =>
    show PSim h U1 s1 (aflatItem _ _ _ _ _ _ _) (flatItem _ _ _ _ _ _ _) _
    unfold aflatItem flatItem
    refine PSim.bindRes fun bit _ => ?_
    cases child with
    | error err =>
      refine PSim.ite Iff.rfl (fun _ => ?_) (fun _ => PSim.pure heap1 .skip)
      refine PSim.bindOk (halone U1 s1 hsub1 heap1) fun U2 s2 r hsub2 heap2 hr => ?_
      exact PSim.al (hitem none U2 s2 _ _ (by simp) (fun z hz => hsub2 z (hsub1 z hz)) heap2 hr)
    | ok m =>
      have hm := Bia.atBitIndex_mem hat
      refine PSim.ite Iff.rfl (fun _ => ?_) (fun _ => ?_)
      · refine PSim.bind (hrun m hm U1 s1 hsub1 heap1) fun U2 s2 r r' hsub2 heap2 hr => ?_
        exact PSim.al (hitem (some m) U2 s2 _ _ (by simpa using hm) (fun z hz => hsub2 z (hsub1 z hz)) heap2 hr)
      · refine PSim.bind (helse m hm U1 s1 hsub1 heap1) fun U2 s2 r r' hsub2 heap2 hr => ?_
        exact PSim.al (hitem (some m) U2 s2 _ _ (by simpa using hm) (fun z hz => hsub2 z (hsub1 z hz)) heap2 hr)

/-! ### Two branch nodes -/

theorem abothLoop_sim {ρ ρ' : Type} (reduce : R → R → R) (e : R) (par : Par)
    (bits : BitVec n) (extra : Nat) (vs : List (ANode n K V)) (bits2 : BitVec n) (extra2 : Nat) (rs : List (ANode n L W))
    {U : ANode n S X → Prop} {s : Nat} (heap : Heap U s)
    {run : ANode n K V → ANode n L W → Prog Q A ρ} {run' : Node n K V → Node n L W → Res ρ'}
    {onlyL : ANode n K V → Prog Q A ρ} {onlyL' : Node n K V → Res ρ'}
    {onlyR : ANode n L W → Prog Q A ρ} {onlyR' : Node n L W → Res ρ'}
    {item : Option (ANode n K V) → Option (ANode n L W) → ρ → Res (AItem n S X R)}
    {item' : Option (Node n K V) → Option (Node n L W) → ρ' → Res (Item n S X R)}
    (PR : (ANode n S X → Prop) → ρ → ρ' → Prop)
    (hrun : ∀ m ∈ vs, ∀ r ∈ rs, ∀ U' s', (∀ z, U z → U' z) → Heap U' s' →
      PSim h U' s' (run m r) (run' m.erase r.erase) PR)
    (hL : ∀ m ∈ vs, ∀ U' s', (∀ z, U z → U' z) → Heap U' s' → PSim h U' s' (onlyL m) (onlyL' m.erase) PR)
    (hR : ∀ r ∈ rs, ∀ U' s', (∀ z, U z → U' z) → Heap U' s' → PSim h U' s' (onlyR r) (onlyR' r.erase) PR)
    (hitem : ∀ (o : Option (ANode n K V)) (p : Option (ANode n L W)) U' s' a b, (∀ m ∈ o, m ∈ vs) → (∀ r ∈ p, r ∈ rs) →
      (∀ z, U z → U' z) → Heap U' s' → PR U' a b →
      Sim U' s' (Al.lift (item o p a)) (item' (o.map ANode.erase) (p.map ANode.erase) b) (fun U'' _ => ItemQ U'')) :
    PSim h U s
      (abothLoop reduce e par ⟨bits, vs.map fun m => (m, run m), extra⟩ ⟨bits2, rs, extra2⟩ onlyL onlyR item)
      (bothLoop reduce e par ⟨bits, (vs.map ANode.erase).map fun m => (m, run' m), extra⟩
        ⟨bits2, rs.map ANode.erase, extra2⟩ onlyL' onlyR' item') (fun U' => AccQ U') := by
  unfold abothLoop bothLoop
  refine AAcc.gatherE_sim reduce e par heap fun i U1 s1 hsub1 heap1 => ?_
  rw [List.map_map, Bia.atBitIndex_mapped, Bia.atBitIndex_mapped, Bia.atBitIndex_mapped]
  cases hat : (Bia.mk bits vs extra).atBitIndex i with
  | panic p => exact rfl
  | diverge => exact trivial
  | ok child =>
    cases hat2 : (Bia.mk bits2 rs extra2).atBitIndex i with
    | panic p => exact rfl
    | diverge => exact trivial
    | ok rchild =>
      show PSim h U1 s1 (abothItem _ _ _ _ _ _) (bothItem _ _ _ _ _ _) _
      unfold abothItem bothItem
      cases child with
      | error err =>
        cases rchild with
        | error err2 => exact PSim.pure heap1 .skip
        | ok r =>
          have hr := Bia.atBitIndex_mem hat2
          refine PSim.bind (hR r hr U1 s1 hsub1 heap1) fun U2 s2 a b hsub2 heap2 hab => ?_
          exact PSim.al (hitem none (some r) U2 s2 _ _ (by simp) (by simpa using hr)
            (fun z hz => hsub2 z (hsub1 z hz)) heap2 hab)
      | ok m =>
        have hm := Bia.atBitIndex_mem hat
        cases rchild with
        | error err2 =>
          refine PSim.bind (hL m hm U1 s1 hsub1 heap1) fun U2 s2 a b hsub2 heap2 hab => ?_
          exact PSim.al (hitem (some m) none U2 s2 _ _ (by simpa using hm) (by simp)
            (fun z hz => hsub2 z (hsub1 z hz)) heap2 hab)
        | ok r =>
          have hr := Bia.atBitIndex_mem hat2
          refine PSim.bind (hrun m hm r hr U1 s1 hsub1 heap1) fun U2 s2 a b hsub2 heap2 hab => ?_
          exact PSim.al (hitem (some m) (some r) U2 s2 _ _ (by simpa using hm) (by simpa using hr)
            (fun z hz => hsub2 z (hsub1 z hz)) heap2 hab)

end HT
