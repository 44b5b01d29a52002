import Verif.KeyCallsLemmas
/-! # insert is its reference program, when hashes are right -/
namespace HT

variable {K V : Type} {c : Cfg} {hash : K → BitVec c.w}

open Tree

/-- The program when the hashes of stored keys are the right ones. -/
def Tree.resolve {α : Type} (hash : K → BitVec c.w) : KTree c K V α → KTree c K V α
  | .ret a => .ret a
  | .panic p => .panic p
  | .diverge => .diverge
  | .ask .lookupHash f => .ask .lookupHash fun a => (f a).resolve hash
  | .ask (.hash k) f => .ask (.hash k) fun _ => (f (hash k)).resolve hash
  | .ask (.eq k) f => .ask (.eq k) fun a => (f a).resolve hash
  | .ask .intoKey f => .ask .intoKey fun a => (f a).resolve hash
  | .ask .intoValue f => .ask .intoValue fun a => (f a).resolve hash
  | .ask (.cloneKey k) f => .ask (.cloneKey k) fun a => (f a).resolve hash
  | .ask (.cloneValue v) f => .ask (.cloneValue v) fun a => (f a).resolve hash

theorem resolve_bind {α β : Type} (x : KTree c K V α) (f : α → KTree c K V β) :
    resolve hash (x.bind f) = (resolve hash x).bind fun a => resolve hash (f a) := by
  induction x with
  | ret a => rfl
  | panic p => rfl
  | diverge => rfl
  | ask q k ih =>
    cases q <;> simp only [ask_bind, resolve] <;> congr 1 <;> funext a <;> exact ih _

/-- `insert` once the bucket `b` has been looked through, with any type of results. -/
def insNext {ρ : Type} (c : Cfg) (replace : Bool) (b : List (K × V)) (r0 : ρ)
    (rr : List (K × V) → K × V → List (K × V) → ρ) (rf : K × V → ρ) :
    Option (List (K × V) × (K × V) × List (K × V)) → KTree c K V ρ
  | none =>
    match b with
    | [] => (convert c).bind fun _ => .ret r0
    | e :: _ => .ask (.hash e.1) fun _ => (convert c).bind fun _ => .ret r0
  | some (p, e, q) =>
    if replace then
      match b with
      | [_] => (convert c).bind fun _ => .ret (rr p e q)
      | _ => (look c b).bind fun
        | none => .panic .explicit
        | some (p, e, q) => (copy c p).bind fun _ => (convert c).bind fun _ => .ret (rr p e q)
    else .ret (rf e)

/-- `insert` once the bucket is known, with any type of results. -/
def insRef {ρ : Type} (c : Cfg) (replace : Bool) (b : List (K × V)) (r0 : ρ)
    (rr : List (K × V) → K × V → List (K × V) → ρ) (rf : K × V → ρ) : KTree c K V ρ :=
  (look c b).bind (insNext c replace b r0 rr rf)

theorem insertRef_eq (k : K) (v : V) (replace : Bool) (b : Bucket K V) (new : Trie c K V)
    (g : List (K × V) → K × V → List (K × V) → Trie c K V) :
    insertRef c k v replace b new g = insRef c replace b.mid (.ok (new, (k, v), none))
      (fun p e q => .ok (g p e q, (k, v), some e)) .error := by
  unfold insertRef insRef
  apply look_congr
  · cases b.mid <;> rfl
  · intro p e q hb
    cases replace
    · rfl
    · rcases b.mid with _ | ⟨x, _ | ⟨y, b⟩⟩ <;> rfl

theorem insRef_bind {ρ σ : Type} {replace : Bool} {b : List (K × V)} {r0 : ρ} {s0 : σ}
    {rr : List (K × V) → K × V → List (K × V) → ρ} {sr : List (K × V) → K × V → List (K × V) → σ}
    {rf : K × V → ρ} {sf : K × V → σ} {f : ρ → KTree c K V σ} (h0 : f r0 = .ret s0)
    (hr : ∀ p e q, b = p ++ e :: q → f (rr p e q) = .ret (sr p e q)) (hf : ∀ e, f (rf e) = .ret (sf e)) :
    (insRef c replace b r0 rr rf).bind f = insRef c replace b s0 sr sf := by
  simp only [insRef, bind_assoc']
  apply look_congr
  · cases b with
    | nil => simp only [insNext, bind_assoc', ret_bind, h0]
    | cons e b => simp only [insNext, ask_bind, bind_assoc', ret_bind, h0]
  · intro p e q hb
    cases replace with
    | false => simp only [insNext, Bool.false_eq_true, if_false, ret_bind, hf]
    | true =>
      simp only [insNext, if_true]
      have main : (((look c b).bind fun x => match (motive := Option (List (K × V) × (K × V) × List (K × V)) → KTree c K V ρ) x with
          | none => .panic .explicit
          | some (p, e, q) => (copy c p).bind fun _ => (convert c).bind fun _ => .ret (rr p e q)).bind f) =
          ((look c b).bind fun x => match (motive := Option (List (K × V) × (K × V) × List (K × V)) → KTree c K V σ) x with
          | none => .panic .explicit
          | some (p, e, q) => (copy c p).bind fun _ => (convert c).bind fun _ => .ret (sr p e q)) := by
        rw [bind_assoc']
        apply look_congr
        · rfl
        · intro p e q hb
          simp only [bind_assoc', ret_bind, hr p e q hb]
      rcases b with _ | ⟨x, _ | ⟨y, b⟩⟩
      · simp at hb
      · simp only [bind_assoc', ret_bind, hr p e q hb]
      · exact main

section
attribute [local instance] Lawless.noEq

theorem liftLK_eq {this : LNext K V} {k : K} {v : V} {f : Flag c} {r : InsertResult c.n K V}
    (h : liftL c hash this k v f = .ok r) :
    resolve hash (liftLK c this k v f) =
      .ask (.hash this.key) fun _ => (convert c).bind fun _ => .ret r := by
  refine congrArg (Tree.ask (A := KAns K V c.w) (KCall.hash this.key)) (funext fun _ => ?_)
  show resolve hash (if hash this.key = f.hashValue then _ else _) = _
  simp only [liftL] at h
  split
  · rename_i he
    rw [if_pos he] at h
    injection h with h
    subst h
    rfl
  · rename_i he
    rw [if_neg he] at h
    obtain ⟨tf, h1, h⟩ := Res.bind_eq_ok.1 h
    obtain ⟨tf', h2, h⟩ := Res.bind_eq_ok.1 h
    obtain ⟨m, h3, h⟩ := Res.bind_eq_ok.1 h
    injection h with h
    subst h
    rw [h1]
    simp only [res_ok, bind_def, ret_bind, h2, h3]
    rfl

/-- What `insert` returns in node `m` when `l` is what remains of its entries. -/
structure InsK (hash : K → BitVec c.w) (mx d : Nat) (k : K) (v : V) (m : Node c.n K V) (prev : Option (K × V))
    (l : List (K × V)) (honest : Prop) (m' : Node c.n K V) : Prop where
  visit : m'.visit.Perm ((k, v) :: l)
  size : m'.size = m'.visit.length
  kind : KindOk prev m m'
  wf : honest → m'.WF hash mx d

theorem liftLK_spec {mx d : Nat} (lim : ∀ d, d < mx → d * c.b < c.w) {k : K} (v : V)
    (this : LNext K V) (m : Node c.n K V) (hm : m = this.toNode)
    (wf : ∀ d, m.WF hash mx d) (hall : ∀ e ∈ m.visit, hash e.1 = hash this.key)
    (sep : Agree c mx (hash this.key) (hash k) → hash this.key = hash k)
    (ag : Agree c d (hash this.key) (hash k))
    {f : Flag c} (hf1 : f.hashValue = hash k) (hf2 : f.depth = d) (hf3 : d * c.b < c.w → f = flagAt (hash k) d) :
    ∃ m', resolve hash (liftLK c this k v f) = (.ask (.hash this.key) fun _ => (convert c).bind fun _ =>
        .ret (.inserted m' (k, v) none)) ∧ InsK hash mx d k v m none m.visit True m' := by
  obtain ⟨r, h1, h2⟩ := Lawless.liftL_spec (v := v) (q := fun _ => false) (replace := false) lim this m hm wf hall
    sep ag (by simp) hf1 hf2 hf3
  cases h2 with
  | found fk fv h3 h4 =>
    rw [List.find?_eq_none.2 (by simp)] at h4
    simp at h4
  | inserted m' prev h3 h4 h5 h6 h7 =>
    have hp := h4 rfl
    subst hp
    refine ⟨m', liftLK_eq h1, ⟨?_, h5.size_eq, h7, fun _ => h5⟩⟩
    rwa [Lawless.eraseP_none (List.find?_eq_none.2 (by simp))] at h6

theorem Node.insertAllK_eq (k : K) (v : V) (replace : Bool) (ms : List (Node c.n K V)) :
    Node.insertAllK c k v replace ms =
      ms.map (fun m nx selfSize => (m.insertK c k v replace nx).bind fun r => .res (m.insertStep selfSize r)) := by
  induction ms with
  | nil => rfl
  | cons m ms ih => rw [Node.insertAllK, ih, List.map_cons]; rfl

theorem LNode.visit_two (l : LNode K V) : ∃ y b, l.visit = (l.key, l.value) :: y :: b := by
  cases l with
  | nextS k v s z => exact ⟨_, _, rfl⟩
  | nextL k v l z =>
    cases l <;> exact ⟨_, _, rfl⟩

theorem resolve_look (b : List (K × V)) : resolve hash (look c b) = look c b := by
  induction b with
  | nil => rfl
  | cons e b ih =>
    refine congrArg (Tree.ask (A := KAns K V c.w) (KCall.eq e.1)) (funext fun (a : Bool) => ?_)
    cases a with
    | true => rfl
    | false =>
      show resolve hash ((look c b).bind _) = _
      rw [resolve_bind, ih]
      rfl

theorem resolve_copy (b : List (K × V)) : resolve hash (copy c b) = copy c b := by
  induction b with
  | nil => rfl
  | cons e b ih =>
    rw [copy, resolve_bind, ih]
    rfl

theorem resolve_convert {α : Type} (f : Unit → KTree c K V α) :
    resolve hash ((convert c).bind f) = (convert c).bind fun a => resolve hash (f a) := rfl

theorem resolve_res {α : Type} (x : Res α) : resolve hash (Tree.res x : KTree c K V α) = Tree.res x := by
  cases x <;> rfl

/-- The results of `insert` in a node. -/
abbrev nodeInsRef (c : Cfg) (k : K) (v : V) (replace : Bool) (b : List (K × V)) (new : Node c.n K V)
    (g : List (K × V) → K × V → List (K × V) → Node c.n K V) : KTree c K V (InsertResult c.n K V) :=
  insRef c replace b (.inserted new (k, v) none) (fun p e q => .inserted (g p e q) (k, v) (some e))
    (fun e => .found e.1 e.2)

theorem SNode.insertK_eq {mx d : Nat} (lim : ∀ d, d < mx → d * c.b < c.w) {k : K} (v : V) (replace : Bool)
    (s : SNode K V) (sep : Agree c mx (hash s.key) (hash k) → hash s.key = hash k)
    (ag : Agree c d (hash s.key) (hash k)) {flag : Option (Flag c)} (hf : FlagFor (hash k) d flag) :
    ∃ new g, resolve hash (s.insertK c k v replace flag) = nodeInsRef c k v replace s.visit new g ∧
      InsK hash mx d k v (.S s) none s.visit True new ∧
      ∀ p e q, s.visit = p ++ e :: q → InsK hash mx d k v (.S s) (some e) (p ++ q) (hash e.1 = hash k) (g p e q) := by
  obtain ⟨f, rfl, hf1, hf2, hf3⟩ := hf
  obtain ⟨m', h1, h2⟩ := liftLK_spec lim v (.S s) (.S s) rfl (fun d => .S d s)
    (by simp [Node.visit, SNode.visit, LNext.key]) sep ag hf1 hf2 hf3
  refine ⟨m', fun _ _ _ => .S ⟨k, v⟩, ?_, h2, ?_⟩
  · rw [nodeInsRef, insRef, SNode.visit, look_cons]
    refine congrArg (Tree.ask (A := KAns K V c.w) (KCall.eq s.key)) (funext fun (a : Bool) => ?_)
    cases a
    · exact h1
    · cases replace <;> rfl
  · intro p e q hb
    simp only [SNode.visit] at hb
    have : p = [] ∧ q = [] := by
      have := congrArg List.length hb
      simp at this
      exact ⟨List.length_eq_zero_iff.1 (by omega), List.length_eq_zero_iff.1 (by omega)⟩
    obtain ⟨rfl, rfl⟩ := this
    exact ⟨by simp [Node.visit, SNode.visit], rfl, by simp [KindOk], fun _ => .S _ _⟩

theorem LNode.insertK_eq {mx d : Nat} (lim : ∀ d, d < mx → d * c.b < c.w) {k : K} (v : V) (replace : Bool)
    (l : LNode K V) (wl : l.WF hash) (sep : Agree c mx (hash l.key) (hash k) → hash l.key = hash k)
    (ag : Agree c d (hash l.key) (hash k)) {flag : Option (Flag c)} (hf : FlagFor (hash k) d flag) :
    ∃ new g, resolve hash (l.insertK c k v replace flag) = nodeInsRef c k v replace l.visit new g ∧
      InsK hash mx d k v (.L l) none l.visit True new ∧
      ∀ p e q, l.visit = p ++ e :: q → InsK hash mx d k v (.L l) (some e) (p ++ q) (hash e.1 = hash k) (g p e q) := by
  obtain ⟨f, rfl, hf1, hf2, hf3⟩ := hf
  obtain ⟨m', h1, h2⟩ := liftLK_spec lim v (.L l) (.L l) rfl (fun d => .L d l wl) wl.hash sep ag hf1 hf2 hf3
  obtain ⟨g, h3, h4⟩ := LNode.removeFromK_eq (c := c) l wl.size
  obtain ⟨y, b, hv⟩ := l.visit_two
  refine ⟨m', fun p e q => match g p e q with
    | .notFound => .L l
    | .removedL l' _ _ => .L (LNode.new k v (.L l'))
    | .removedS s' _ _ => .L (LNode.new k v (.S s')), ?_, h2, ?_⟩
  · rw [nodeInsRef, insRef, LNode.insertK, LNode.findK_eq, bind_def, bind_assoc', resolve_bind, resolve_look]
    apply look_congr
    · rw [hv]
      exact h1
    · intro p e q hb
      simp only [ret_bind, Option.map_some]
      cases replace with
      | false => rfl
      | true =>
        simp only [if_true, bind_def]
        rw [resolve_bind, h3, resolve_bind, resolve_look, bind_assoc']
        rw [hv]
        apply look_congr
        · rfl
        · intro p e q hb
          have := h4 p e q (by rw [hv]; exact hb)
          simp only [resolve_bind, resolve_copy, bind_assoc']
          congr 1; funext _
          revert this
          simp only [resolve, ret_bind]
          generalize g p e q = r
          intro this
          cases this <;> rfl
  · intro p e q hb
    have := h4 p e q hb
    revert this
    simp only
    generalize g p e q = r
    intro this
    have hmem : ∀ x ∈ p ++ q, x ∈ l.visit := by
      intro x hx
      rw [hb]
      simp only [List.mem_append, List.mem_cons] at hx ⊢
      rcases hx with h | h
      · exact .inl h
      · exact .inr (.inr h)
    have hhe : hash e.1 = hash l.key := wl.hash e (by rw [hb]; simp)
    cases this with
    | L l' h5 h6 =>
      have hk'' : hash l'.key = hash l.key := by
        have : (l'.key, l'.value) ∈ l'.visit := by
          cases l' <;> simp [LNode.visit, LNode.key, LNode.value]
        rw [h5] at this
        exact wl.hash (l'.key, l'.value) (hmem _ this)
      refine ⟨?_, ?_, by simp [KindOk], fun hh => .L _ _ (LNode.new_wf ⟨h6, ?_, Lawless.keys_any _⟩ ?_ (fun _ _ => rfl))⟩
      · simp only [Node.visit, LNode.new, LNode.visit, h5]; exact List.Perm.refl _
      · exact LNode.size_eq (l := LNode.new k v (.L l')) (by simp [LNode.new, LNode.SizeOk, h6])
      · intro x hx
        rw [h5] at hx
        rw [hk'', wl.hash x (hmem x hx)]
      · rw [hk'', ← hhe, hh]
    | S s' h5 =>
      refine ⟨?_, ?_, by simp [KindOk], fun hh => .L _ _ (LNode.new_wf_S ?_ rfl)⟩
      · simp only [Node.visit, LNode.new, LNode.visit, h5]; exact List.Perm.refl _
      · exact LNode.size_eq (l := LNode.new k v (.S s')) (by simp [LNode.new, LNode.SizeOk])
      · have : (s'.key, s'.value) ∈ p ++ q := by rw [← h5]; simp [SNode.visit]
        rw [wl.hash (s'.key, s'.value) (hmem _ this), ← hhe, hh]

/-- What a branch node does with the result of `insert` in a child. -/
def Node.afterInsert (bits : BitVec c.n) (values : List (Node c.n K V)) (extra : Nat) (flag : BitVec c.n)
    (m : Node c.n K V) (r : InsertResult c.n K V) : Res (InsertResult c.n K V) := do
  let r ← m.insertStep extra r
  match r with
  | .inl (fk, fv) => .ok (.found fk fv)
  | .inr (m, size, ptr, prev) => do
    let a ← (Bia.mk bits values extra).updated flag m size
    let a ← Res.unwrapE a
    .ok (.inserted (Node.ofBia a) ptr prev)

theorem Node.afterInsert_ok {mx d : Nat} {k : K} {v : V} {bits : BitVec c.n} {values : List (Node c.n K V)}
    {extra : Nat} (wfC : (Node.C bits values extra).WF hash mx d) {m1 : Node c.n K V}
    (hs : (Bia.mk bits values extra).slot (chunk c (hash k) d) = some m1) {A C l : List (K × V)}
    (hv : ∀ a' : Bia c.n (Node c.n K V), a'.Ok →
      (∀ j, j ≠ chunk c (hash k) d → a'.slot j = (Bia.mk bits values extra).slot j) →
        Node.visitAll a'.values = A ++ slotVisit a' (chunk c (hash k) d) ++ C)
    {prev : Option (K × V)} {honest : Prop} {m' : Node c.n K V}
    (hl : (prev = none → l.length = m1.visit.length) ∧ (prev ≠ none → l.length + 1 = m1.visit.length))
    (hsub : ∀ x ∈ l, x ∈ m1.visit) (hr : InsK hash mx (d + 1) k v m1 prev l honest m') :
    ∃ m'', Node.afterInsert bits values extra (bitAt c.n (chunk c (hash k) d)) m1 (.inserted m' (k, v) prev) =
        .ok (.inserted m'' (k, v) prev) ∧
      InsK hash mx d k v (.C bits values extra) prev (A ++ l ++ C) honest m'' := by
  have wfC' : (Node.ofBia ⟨bits, values, extra⟩).WF hash mx d := wfC
  cases wfC with
  | C _ _ _ _ hd ok sz ne at_ sub =>
    have h0 := hv ⟨bits, values, extra⟩ ok (fun _ _ => rfl)
    simp only [slotVisit, hs] at h0
    have hex : extra = A.length + m1.visit.length + C.length := by rw [sz, h0]; simp [Nat.add_assoc]
    have hsz1 := (sub _ _ hs).size_eq
    have hsz2 := hr.size
    have hlen := hr.visit.length_eq
    simp only [List.length_cons] at hlen
    have hl1 : m1.visit.length ≤ l.length + 1 := by
      by_cases hp : prev = none
      · have := hl.1 hp; omega
      · have := hl.2 hp; omega
    have h5 := hr.kind
    have hstep : m1.insertStep extra (.inserted m' (k, v) prev) =
        .ok (.inr (m', extra + m'.visit.length - m1.visit.length, (k, v), prev)) := by
      unfold Node.insertStep
      cases m1 <;> cases m' <;> simp only [KindOk] at h5 <;> simp only [hsz1, hsz2]
      · rw [usub, if_pos (by omega)]; rfl
      · have := hl.1 h5
        rw [show extra + _ - _ = extra + 1 by omega]
      · rw [usub, if_pos (by omega)]; rfl
      · have := hl.1 h5
        rw [show extra + _ - _ = extra + 1 by omega]
      · have := hl.1 h5
        rw [show extra + _ - _ = extra + 1 by omega]
      · have := hl.2 h5
        rw [show extra + _ - _ = extra by omega]
    rw [Node.afterInsert, hstep]
    simp only [Res.ok_bind]
    generalize hz : extra + m'.visit.length - m1.visit.length = z
    have e1 := Bia.updated_eq ⟨bits, values, extra⟩ ok c.n_le hs m' z
    have e2 := Bia.slot_updated ⟨bits, values, extra⟩ ok hs m' z
    have e3 := Bia.ok_updated ⟨bits, values, extra⟩ ok (onesBelow bits (chunk c (hash k) d)) m' z
    simp only [e1, Res.ok_bind, Res.unwrapE_ok]
    have hv' := hv _ e3 (fun j hj => by rw [e2]; simp [hj])
    simp only [slotVisit, e2, if_true] at hv'
    have hperm : (A ++ m'.visit ++ C).Perm ((k, v) :: (A ++ l ++ C)) := by
      refine (List.Perm.append_right _ (List.Perm.append_left _ hr.visit)).trans ?_
      exact (List.Perm.append_right C (List.perm_middle (a := (k, v)) (l₁ := A) (l₂ := l)))
    have hsize : z = (A ++ m'.visit ++ C).length := by simp only [List.length_append]; omega
    refine ⟨_, rfl, ⟨?_, ?_, by simp [KindOk, Node.ofBia], fun hh => wf_set wfC' e3 e2 ?_ (hr.wf hh) ?_ ?_⟩⟩
    · show (Node.visitAll _).Perm _
      rw [hv']; exact hperm
    · show z = (Node.visitAll _).length
      rw [hv']; exact hsize
    · rw [hv']; exact hsize
    · intro h
      rw [h] at hlen; simp at hlen
    · intro x hx
      rcases List.mem_cons.1 (hr.visit.mem_iff.1 hx) with h | h
      · rw [h]
      · exact at_ _ _ hs x (hsub x h)

theorem Node.insertK_eq {mx d : Nat} (lim : ∀ d, d < mx → d * c.b < c.w) {k : K} (v : V) (replace : Bool)
    {m : Node c.n K V} (wf : m.WF hash mx d)
    (sep : ∀ e ∈ m.visit, Agree c mx (hash e.1) (hash k) → hash e.1 = hash k)
    (ag : ∀ e ∈ m.visit, Agree c d (hash e.1) (hash k))
    {flag : Option (Flag c)} (hf : FlagFor (hash k) d flag) :
    ∃ b, Bucket.Of hash m.visit (hash k) b ∧
      ((∃ new g, resolve hash (m.insertK c k v replace flag) = nodeInsRef c k v replace b.mid new g ∧
        InsK hash mx d k v m none m.visit True new ∧
        ∀ p e q, b.mid = p ++ e :: q →
          InsK hash mx d k v m (some e) (b.before ++ (p ++ q) ++ b.after) (hash e.1 = hash k) (g p e q)) ∨
      (c.checked = true ∧ m.insertK c k v replace flag = .panic .shiftOverflow)) := by
  induction wf generalizing flag with
  | S d s =>
    obtain ⟨new, g, h1, h2, h3⟩ := SNode.insertK_eq lim v replace s (sep (s.key, s.value) (by simp [Node.visit, SNode.visit]))
      (ag (s.key, s.value) (by simp [Node.visit, SNode.visit])) hf
    exact ⟨⟨[], s.visit, []⟩, .whole (by simp [Node.visit, SNode.visit]), .inl
      ⟨new, g, by rw [Node.insertK]; exact h1, h2, fun p e q hb => by simpa using h3 p e q hb⟩⟩
  | L d l wl =>
    have hkey : (l.key, l.value) ∈ l.visit := by cases l <;> simp [LNode.visit, LNode.key, LNode.value]
    obtain ⟨new, g, h1, h2, h3⟩ := LNode.insertK_eq lim v replace l wl (sep (l.key, l.value) hkey)
      (ag (l.key, l.value) hkey) hf
    refine ⟨⟨[], l.visit, []⟩, .whole ?_, .inl
      ⟨new, g, by rw [Node.insertK]; exact h1, h2, fun p e q hb => by simpa using h3 p e q hb⟩⟩
    intro e he e' he'; rw [wl.hash e he, wl.hash e' he']
  | C d bits values extra hd ok sz ne at_ sub ih =>
    have wfC : (Node.C bits values extra).WF hash mx d :=
      .C d bits values extra hd ok sz ne at_ sub
    have wfC' : (Node.ofBia ⟨bits, values, extra⟩).WF hash mx d := wfC
    obtain ⟨f, rfl, hf1, hf2, hf3⟩ := hf
    have hlt := lim d hd
    have hff := hf3 hlt
    subst hff
    rw [Node.insertK]
    simp only [Res.unwrap_some, res_ok, bind_def, ret_bind]
    have hi := chunk_lt (hash k) d
    have ok' : (Bia.mk bits (Node.insertAllK c k v replace values) extra).Ok := by
      rw [Node.insertAllK_eq]; simpa [Bia.Ok] using ok
    rw [show (flagAt (hash k) d).flag = bitAt c.n (chunk c (hash k) d) from rfl,
      Bia.at'_bitAt _ ok' hi, Node.insertAllK_eq, Bia.slot_map]
    cases hs : (Bia.mk bits values extra).slot (chunk c (hash k) d) with
    | none =>
      have hsv : slotVisit (Bia.mk bits values extra) (chunk c (hash k) d) = [] := by simp [slotVisit, hs]
      obtain ⟨A, C, h1, h2, h3⟩ := Bucket.Of.slot (a := ⟨bits, values, extra⟩) (h := hash k) ok at_
        (b := ⟨[], [], []⟩) (by rw [hsv]; exact .whole (by simp))
      have e1 := Bia.inserted_eq ⟨bits, values, extra⟩ ok c.n_le hi hs (Node.S ⟨k, v⟩) (extra + 1)
      have e2 := Bia.slot_inserted ⟨bits, values, extra⟩ ok hi hs (Node.S ⟨k, v⟩) (extra + 1)
      have e3 := Bia.ok_inserted ⟨bits, values, extra⟩ ok hi hs (Node.S ⟨k, v⟩) (extra + 1)
      have h0 := h2 ⟨bits, values, extra⟩ ok (fun _ _ => rfl)
      rw [hsv] at h0
      have h0 : Node.visitAll values = A ++ [] ++ C := h0
      have hv' := h2 _ e3 (fun j hj => by rw [e2]; simp [hj])
      simp only [slotVisit, e2, if_true, Node.visit, SNode.visit] at hv'
      have hperm : (A ++ [(k, v)] ++ C).Perm ((k, v) :: Node.visitAll values) := by
        rw [h0]; simp
      simp only [Option.map_none, e1, Res.unwrapE_ok, res_ok, ret_bind]
      refine ⟨_, h3, .inl ⟨_, fun _ _ _ => .C bits values extra, rfl, ⟨?_, ?_, by simp [KindOk, Node.ofBia], fun _ =>
        wf_set wfC' e3 e2 ?_ (.S _ _) ?_ ?_⟩, fun p e q hb => by simp at hb⟩⟩
      · show (Node.visitAll _).Perm _
        rw [hv', Node.visit]; exact hperm
      · show extra + 1 = (Node.visitAll _).length
        rw [hv', hperm.length_eq, sz]; rfl
      · show extra + 1 = _
        rw [hv', hperm.length_eq, sz]; rfl
      · simp [Node.visit, SNode.visit]
      · simp [Node.visit, SNode.visit]
    | some m1 =>
      have hsv : slotVisit (Bia.mk bits values extra) (chunk c (hash k) d) = m1.visit := by simp [slotVisit, hs]
      simp only [Option.map_some]
      rcases next_cases (hash k) hlt with ⟨nx, hnx, hnf⟩ | ⟨hc, hw, hnx⟩
      · have hsplit := visit_split ⟨bits, values, extra⟩ ok hi
        have hsub : ∀ e ∈ m1.visit, e ∈ (Node.C bits values extra).visit := by
          intro e he
          rw [Node.visit]
          refine hsplit.mem_iff.2 (List.mem_append_left _ ?_)
          rw [hsv]; exact he
        have hag : ∀ e ∈ m1.visit, Agree c (d + 1) (hash e.1) (hash k) := by
          intro e he
          exact (ag e (hsub e he)).succ (at_ _ _ hs e he)
        obtain ⟨b, hb, hr⟩ := ih _ _ hs (fun e he => sep e (hsub e he)) hag hnf
        obtain ⟨A, C, h3, h4, h5⟩ := Bucket.Of.slot (a := ⟨bits, values, extra⟩) (h := hash k) ok at_
          (b := b) (by rw [hsv]; exact hb)
        rw [hsv] at h3
        refine ⟨_, h5, ?_⟩
        simp only [hnx, res_ok, ret_bind]
        rcases hr with ⟨new, g, hg, good0, good⟩ | ⟨hc, hp⟩
        · left
          obtain ⟨new', hn1, hn2⟩ := Node.afterInsert_ok wfC hs h4 ⟨fun _ => rfl, fun h => absurd rfl h⟩
            (fun _ h => h) good0
          have step : ∀ p e q, b.mid = p ++ e :: q →
              ∃ m'', Node.afterInsert bits values extra (bitAt c.n (chunk c (hash k) d)) m1
                  (.inserted (g p e q) (k, v) (some e)) = .ok (.inserted m'' (k, v) (some e)) ∧
                InsK hash mx d k v (.C bits values extra) (some e)
                  (A ++ (b.before ++ (p ++ q) ++ b.after) ++ C) (hash e.1 = hash k) m'' := by
            intro p e q hm
            refine Node.afterInsert_ok wfC hs h4 ⟨fun h => by simp at h, fun _ => ?_⟩ ?_ (good p e q hm)
            · rw [hb.eq, hm]; simp; omega
            · intro x hx
              rw [hb.eq, hm]
              simp only [List.mem_append, List.mem_cons] at hx ⊢
              rcases hx with (h | h | h) | h
              · exact .inl (.inl h)
              · exact .inl (.inr (.inl h))
              · exact .inl (.inr (.inr (.inr h)))
              · exact .inr h
          have aft : ∀ r, (resolve hash ((Tree.res (m1.insertStep extra r)).bind fun r =>
              match r with
              | .inl (fk, fv) => .ret (.found fk fv)
              | .inr (m, size, ptr, prev) =>
                (Tree.res ((Bia.mk bits values extra).updated (bitAt c.n (chunk c (hash k) d)) m size)).bind fun a =>
                (Tree.res (Res.unwrapE a)).bind fun a => .ret (.inserted (Node.ofBia a) ptr prev)) :
              KTree c K V (InsertResult c.n K V)) =
              Tree.res (Node.afterInsert bits values extra (bitAt c.n (chunk c (hash k) d)) m1 r) := by
            intro r
            unfold Node.afterInsert
            cases m1.insertStep extra r with
            | panic p => rfl
            | diverge => rfl
            | ok r =>
              rcases r with ⟨fk, fv⟩ | ⟨m, size, ptr, prev⟩
              · rfl
              · simp only [res_ok, ret_bind, Res.ok_bind]
                cases (Bia.mk bits values extra).updated (bitAt c.n (chunk c (hash k) d)) m size with
                | panic p => rfl
                | diverge => rfl
                | ok a =>
                  simp only [res_ok, ret_bind, Res.ok_bind]
                  cases Res.unwrapE a <;> rfl
          refine ⟨new', fun p e q => match Node.afterInsert bits values extra (bitAt c.n (chunk c (hash k) d)) m1
              (.inserted (g p e q) (k, v) (some e)) with
            | .ok (.inserted m'' _ _) => m''
            | _ => .C bits values extra, ?_, ?_, ?_⟩
          · rw [bind_assoc', resolve_bind, hg]
            refine insRef_bind ?_ ?_ ?_
            · refine (aft _).trans ?_
              rw [hn1]; rfl
            · intro p e q hm
              obtain ⟨m'', h6, h7⟩ := step p e q hm
              refine (aft _).trans ?_
              simp only [h6]; rfl
            · intro e; rfl
          · rw [← h3] at hn2
            exact hn2
          · intro p e q hm
            obtain ⟨m'', h6, h7⟩ := step p e q hm
            simp only [h6]
            simpa using h7
        · right
          exact ⟨hc, by rw [hp]; rfl⟩
      · obtain ⟨b, hb, _⟩ := Node.findK_eq (h := hash k) lim (sub _ _ hs) (some (flagAt (hash k) (d + 1))) (fun _ => rfl)
        obtain ⟨A, C, h3, h4, h5⟩ := Bucket.Of.slot (a := ⟨bits, values, extra⟩) (h := hash k) ok at_
          (b := b) (by rw [hsv]; exact hb)
        refine ⟨_, h5, .inr ⟨hc, ?_⟩⟩
        rw [hnx]; rfl

end
end HT
