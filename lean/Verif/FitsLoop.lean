import Verif.FitsList
/-! # What the loops over a branch node's slots point to, whatever the closures do -/
namespace HT

variable {K V L W S X R : Type} {n : Nat} {Q : Type} {A : Q → Type}

theorem AAcc.loopE_fits (reduce : R → R → R) {U0 : ANode n K V → Prop} {item : Nat → Prog Q A (AItem n K V R)}
    (hitem : ∀ i U s, (∀ z, U0 z → U z) → Heap U s → Fits U s (item i) (fun U' => ItemQ U'))
    (is : List Nat) : ∀ (U : ANode n K V → Prop) (s : Nat) (a : AAcc n K V R) (b : Acc n K V R),
      (∀ z, U0 z → U z) → Heap U s → AccQ U a b →
      Fits U s (AAcc.loopE reduce item is a) (fun U' => AccQ U') := by
  induction is with
  | nil => intro U s a b _ heap q; exact Fits.pure heap q
  | cons i is ih =>
    intro U s a b hsub heap q
    refine Fits.bind (hitem i U s hsub heap) fun U1 s1 it it' hsub1 heap1 I => ?_
    refine Fits.bind (Fits.al (AAcc.step_simQ reduce heap1 (q.mono hsub1) i I)) fun U2 s2 a' b' hsub2 heap2 q' => ?_
    exact ih U2 s2 a' b' (fun z hz => hsub2 z (hsub1 z (hsub z hz))) heap2 q'

theorem AAcc.gatherE_fits (reduce : R → R → R) (e : R) (par : Par) {U : ANode n K V → Prop} {s : Nat}
    (heap : Heap U s) {item : Nat → Prog Q A (AItem n K V R)}
    (hitem : ∀ i U' s', (∀ z, U z → U' z) → Heap U' s' → Fits U' s' (item i) (fun U'' => ItemQ U'')) :
    Fits U s (AAcc.gatherE reduce e par item) (fun U' => AccQ U') := by
  cases par with
  | sequential => exact AAcc.loopE_fits reduce hitem _ U s _ _ (fun _ hz => hz) heap (.init ..)
  | middleIndex =>
    refine Fits.bind (AAcc.loopE_fits reduce hitem _ U s _ _ (fun _ hz => hz) heap (.init ..))
      fun U1 s1 l l' hsub1 heap1 q1 => ?_
    refine Fits.bind (AAcc.loopE_fits reduce hitem _ U1 s1 _ _ hsub1 heap1 (.init ..))
      fun U2 s2 r r' hsub2 heap2 q2 => ?_
    refine Fits.al (y := l'.merge reduce r') ?_
    simp only [AAcc.merge, Acc.merge, q1.bits, q2.bits]
    cases Res.unwrapE (bitMerge l'.bits r'.bits) with
    | panic p => exact rfl
    | diverge => exact trivial
    | ok bits =>
      refine Sim.pure heap2 ⟨by simp [q1.size, q2.size], rfl, by simp [q1.values, q2.values],
        by simp [q1.ul, q2.ul], by simp [q1.ur, q2.ur], by simp [q1.red, q2.red], ?_⟩
      intro y hy
      rcases List.mem_append.1 hy with hy | hy
      · exact hsub2 _ (q1.mem y hy)
      · exact q2.mem y hy

/-! ### A branch node against a list or single node -/

theorem aflatLoop_fits {c : Cfg} {ρ ρ' : Type} (reduce : R → R → R) (e : R) {rightHash : BitVec c.w} (depth : Nat)
    (bits : BitVec c.n) (extra : Nat) (vs : List (ANode c.n K V)) {U : ANode c.n S X → Prop} {s : Nat} (heap : Heap U s)
    {run : ANode c.n K V → Prog Q A ρ} {elsewhere : ANode c.n K V → Prog Q A ρ} {alone : Prog Q A ρ}
    {item : Option (ANode c.n K V) → ρ → Res (AItem c.n S X R)} (PR : (ANode c.n S X → Prop) → ρ → ρ' → Prop)
    (hrun : ∀ m ∈ vs, ∀ U' s', (∀ z, U z → U' z) → Heap U' s' → Fits U' s' (run m) PR)
    (helse : ∀ m ∈ vs, ∀ U' s', (∀ z, U z → U' z) → Heap U' s' → Fits U' s' (elsewhere m) PR)
    (halone : ∀ U' s', (∀ z, U z → U' z) → Heap U' s' → Fits U' s' alone PR)
    (hitem : ∀ (o : Option (ANode c.n K V)) U' s' a b, (∀ m ∈ o, m ∈ vs) → (∀ z, U z → U' z) → Heap U' s' → PR U' a b →
      ∃ y, Sim U' s' (Al.lift (item o a)) y (fun U'' _ => ItemQ U'')) :
    Fits U s
      (aflatLoop reduce e rightHash depth ⟨bits, vs.map fun m => (m, run m), extra⟩ elsewhere alone item)
      (fun U' => AccQ U') := by
  unfold aflatLoop
  refine Fits.bindRes fun flag _ => ?_
  refine AAcc.gatherE_fits reduce e .sequential heap fun i U1 s1 hsub1 heap1 => ?_
  rw [Bia.atBitIndex_mapped]
  cases hat : (Bia.mk bits vs extra).atBitIndex i with
  | panic p => exact trivial
  | diverge => exact trivial
  | ok child =>
    show Fits U1 s1 (aflatItem _ _ _ _ _ _ _) _
    unfold aflatItem
    refine Fits.bindRes fun bit _ => ?_
    cases child with
    | error err =>
      refine Fits.ite (fun _ => ?_) (fun _ => Fits.pure heap1 .skip)
      refine Fits.bind (halone U1 s1 hsub1 heap1) fun U2 s2 r r' hsub2 heap2 hr => ?_
      obtain ⟨y, hy⟩ := hitem none U2 s2 _ _ (by simp) (fun z hz => hsub2 z (hsub1 z hz)) heap2 hr
      exact Fits.al hy
    | ok m =>
      have hm := Bia.atBitIndex_mem hat
      refine Fits.ite (fun _ => ?_) (fun _ => ?_)
      · refine Fits.bind (hrun m hm U1 s1 hsub1 heap1) fun U2 s2 r r' hsub2 heap2 hr => ?_
        obtain ⟨y, hy⟩ := hitem (some m) U2 s2 _ _ (by simpa using hm) (fun z hz => hsub2 z (hsub1 z hz)) heap2 hr
        exact Fits.al hy
      · refine Fits.bind (helse m hm U1 s1 hsub1 heap1) fun U2 s2 r r' hsub2 heap2 hr => ?_
        obtain ⟨y, hy⟩ := hitem (some m) U2 s2 _ _ (by simpa using hm) (fun z hz => hsub2 z (hsub1 z hz)) heap2 hr
        exact Fits.al hy

/-! ### Two branch nodes -/

theorem abothLoop_fits {ρ ρ' : Type} (reduce : R → R → R) (e : R) (par : Par)
    (bits : BitVec n) (extra : Nat) (vs : List (ANode n K V)) (bits2 : BitVec n) (extra2 : Nat) (rs : List (ANode n L W))
    {U : ANode n S X → Prop} {s : Nat} (heap : Heap U s)
    {run : ANode n K V → ANode n L W → Prog Q A ρ} {onlyL : ANode n K V → Prog Q A ρ} {onlyR : ANode n L W → Prog Q A ρ}
    {item : Option (ANode n K V) → Option (ANode n L W) → ρ → Res (AItem n S X R)}
    (PR : (ANode n S X → Prop) → ρ → ρ' → Prop)
    (hrun : ∀ m ∈ vs, ∀ r ∈ rs, ∀ U' s', (∀ z, U z → U' z) → Heap U' s' → Fits U' s' (run m r) PR)
    (hL : ∀ m ∈ vs, ∀ U' s', (∀ z, U z → U' z) → Heap U' s' → Fits U' s' (onlyL m) PR)
    (hR : ∀ r ∈ rs, ∀ U' s', (∀ z, U z → U' z) → Heap U' s' → Fits U' s' (onlyR r) PR)
    (hitem : ∀ (o : Option (ANode n K V)) (p : Option (ANode n L W)) U' s' a b, (∀ m ∈ o, m ∈ vs) → (∀ r ∈ p, r ∈ rs) →
      (∀ z, U z → U' z) → Heap U' s' → PR U' a b →
      ∃ y, Sim U' s' (Al.lift (item o p a)) y (fun U'' _ => ItemQ U'')) :
    Fits U s
      (abothLoop reduce e par ⟨bits, vs.map fun m => (m, run m), extra⟩ ⟨bits2, rs, extra2⟩ onlyL onlyR item)
      (fun U' => AccQ U') := by
  unfold abothLoop
  refine AAcc.gatherE_fits reduce e par heap fun i U1 s1 hsub1 heap1 => ?_
  rw [Bia.atBitIndex_mapped]
  cases hat : (Bia.mk bits vs extra).atBitIndex i with
  | panic p => exact trivial
  | diverge => exact trivial
  | ok child =>
    cases hat2 : (Bia.mk bits2 rs extra2).atBitIndex i with
    | panic p => exact trivial
    | diverge => exact trivial
    | ok rchild =>
      show Fits U1 s1 (abothItem _ _ _ _ _ _) _
      unfold abothItem
      cases child with
      | error err =>
        cases rchild with
        | error err2 => exact Fits.pure heap1 .skip
        | ok r =>
          have hr := Bia.atBitIndex_mem hat2
          refine Fits.bind (hR r hr U1 s1 hsub1 heap1) fun U2 s2 a b hsub2 heap2 hab => ?_
          obtain ⟨y, hy⟩ := hitem none (some r) U2 s2 _ _ (by simp) (by simpa using hr)
            (fun z hz => hsub2 z (hsub1 z hz)) heap2 hab
          exact Fits.al hy
      | ok m =>
        have hm := Bia.atBitIndex_mem hat
        cases rchild with
        | error err2 =>
          refine Fits.bind (hL m hm U1 s1 hsub1 heap1) fun U2 s2 a b hsub2 heap2 hab => ?_
          obtain ⟨y, hy⟩ := hitem (some m) none U2 s2 _ _ (by simpa using hm) (by simp)
            (fun z hz => hsub2 z (hsub1 z hz)) heap2 hab
          exact Fits.al hy
        | ok r =>
          have hr := Bia.atBitIndex_mem hat2
          refine Fits.bind (hrun m hm r hr U1 s1 hsub1 heap1) fun U2 s2 a b hsub2 heap2 hab => ?_
          obtain ⟨y, hy⟩ := hitem (some m) (some r) U2 s2 _ _ (by simpa using hm) (by simpa using hr)
            (fun z hz => hsub2 z (hsub1 z hz)) heap2 hab
          exact Fits.al hy

end HT
