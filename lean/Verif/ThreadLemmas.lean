import Verif.RenameNode
/-! # A call tells the same whatever the addresses, and only passes addresses of its operands on -/
namespace HT

variable {Var K V R St : Type} {c : Cfg} {n : Nat}

/-! ### Addresses and renaming -/

theorem ANode.addrsAll_eq (ms : List (ANode n K V)) : ANode.addrsAll ms = ms.flatMap ANode.addrs := by
  induction ms with
  | nil => rfl
  | cons m ms ih => rw [ANode.addrsAll, ih]; rfl

theorem ANode.addrs_C (a : Nat) (bits : BitVec n) (values : List (ANode n K V)) (extra : Nat) :
    (ANode.C a bits values extra).addrs = a :: values.flatMap ANode.addrs := by
  rw [ANode.addrs, ANode.addrsAll_eq]

theorem ALNode.addrs_ren (f : Nat → Nat) (l : ALNode K V) : (l.ren f).addrs = l.addrs.map f := by
  induction l with
  | nextS a k v s z => rfl
  | nextL a k v l z ih => simp only [ALNode.ren, ALNode.addrs, ih, List.map_cons]

theorem ALNode.ren_congr {f g : Nat → Nat} {l : ALNode K V} : l.ren f = l.ren g ↔ ∀ a ∈ l.addrs, f a = g a := by
  induction l with
  | nextS a k v s z => simp [ALNode.ren, ALNode.addrs, ASNode.ren]
  | nextL a k v l z ih => simp [ALNode.ren, ALNode.addrs, ih]

theorem ALNode.ren_ren (f g : Nat → Nat) (l : ALNode K V) : (l.ren f).ren g = l.ren fun a => g (f a) := by
  induction l with
  | nextS a k v s z => rfl
  | nextL a k v l z ih => simp only [ALNode.ren, ih]

theorem ALNode.ren_id (l : ALNode K V) : l.ren (fun a => a) = l := by
  induction l with
  | nextS a k v s z => rfl
  | nextL a k v l z ih => simp only [ALNode.ren, ih]

theorem ALNode.ren_erase (f : Nat → Nat) (l : ALNode K V) : (l.ren f).erase = l.erase := by
  induction l with
  | nextS a k v s z => rfl
  | nextL a k v l z ih => simp only [ALNode.ren, ALNode.erase, ih]

theorem ANode.ind {motive : ANode n K V → Prop} (hS : ∀ s, motive (.S s)) (hL : ∀ l, motive (.L l))
    (hC : ∀ a bits values extra, (∀ m ∈ values, motive m) → motive (.C a bits values extra)) (m : ANode n K V) : motive m := by
  match m with
  | .S s => exact hS s
  | .L l => exact hL l
  | .C a bits values extra => exact hC a bits values extra fun m hm => ANode.ind hS hL hC m
termination_by sizeOf m
decreasing_by
  have : sizeOf m < sizeOf values := List.sizeOf_lt_of_mem hm
  simp only [ANode.C.sizeOf_spec]
  omega

theorem ANode.addrs_ren (f : Nat → Nat) (m : ANode n K V) : (m.ren f).addrs = m.addrs.map f := by
  induction m using ANode.ind with
  | hS s => rfl
  | hL l => exact l.addrs_ren f
  | hC a bits values extra ih =>
    rw [ANode.ren_C, ANode.addrs_C, ANode.addrs_C, List.map_cons, List.flatMap_map, List.map_flatMap]
    congr 1
    exact List.flatMap_congr ih

theorem ANode.ren_congr {f g : Nat → Nat} {m : ANode n K V} : m.ren f = m.ren g ↔ ∀ a ∈ m.addrs, f a = g a := by
  induction m using ANode.ind with
  | hS s => simp [ANode.ren, ANode.addrs, ASNode.ren]
  | hL l => simp only [ANode.ren, ANode.addrs, ANode.L.injEq]; exact ALNode.ren_congr
  | hC a bits values extra ih =>
    rw [ANode.ren_C, ANode.ren_C, ANode.addrs_C]
    simp only [ANode.C.injEq, true_and, and_true, List.mem_cons, List.mem_flatMap, forall_eq_or_imp,
      List.map_inj_left]
    refine and_congr_right fun _ => ⟨?_, ?_⟩
    · rintro h b ⟨m, hm, hb⟩
      exact (ih m hm).1 (h m hm) b hb
    · intro h m hm
      exact (ih m hm).2 fun b hb => h b ⟨m, hm, hb⟩

theorem ANode.ren_ren (f g : Nat → Nat) (m : ANode n K V) : (m.ren f).ren g = m.ren fun a => g (f a) := by
  induction m using ANode.ind with
  | hS s => rfl
  | hL l => simp only [ANode.ren, l.ren_ren]
  | hC a bits values extra ih =>
    rw [ANode.ren_C, ANode.ren_C, ANode.ren_C, List.map_map]
    congr 1
    exact List.map_congr_left ih

theorem ANode.ren_id (m : ANode n K V) : m.ren (fun a => a) = m := by
  induction m using ANode.ind with
  | hS s => rfl
  | hL l => simp only [ANode.ren, l.ren_id]
  | hC a bits values extra ih =>
    rw [ANode.ren_C]
    congr 1
    exact (List.map_congr_left ih).trans (List.map_id' _)

theorem ANode.ren_erase (f : Nat → Nat) (m : ANode n K V) : (m.ren f).erase = m.erase := by
  induction m using ANode.ind with
  | hS s => rfl
  | hL l => simp only [ANode.ren, ANode.erase, l.ren_erase]
  | hC a bits values extra ih =>
    rw [ANode.ren_C, ANode.erase_C, ANode.erase_C, List.map_map]
    congr 1
    exact List.map_congr_left ih

theorem ANode.addr_mem (m : ANode n K V) : m.addr ∈ m.addrs := by
  cases m with
  | S s => simp [ANode.addr, ANode.addrs]
  | L l => cases l <;> simp [ANode.addr, ANode.addrs, ALNode.addr, ALNode.addrs]
  | C a b v z => simp [ANode.addr, ANode.addrs]

theorem ANode.eq_ren {f : Nat → Nat} {m m' : ANode n K V} (hf : f m.addr = f m'.addr → m.addr = m'.addr) :
    (m.ren f).eq (m'.ren f) = m.eq m' := by
  have key : ∀ a b : Nat, (f a = f b → a = b) → (f a == f b) = (a == b) := by
    intro a b h
    by_cases e : a = b
    · simp [e]
    · have : f a ≠ f b := fun h' => e (h h')
      simp [e, this]
  cases m <;> cases m' <;> simp only [ANode.ren, ANode.eq, ANode.addr, ALNode.ren_addr, ASNode.ren] at hf ⊢
  · exact key _ _ hf
  · exact key _ _ hf
  · exact key _ _ hf

namespace ATrie

theorem addrs_ren (f : Nat → Nat) (t : ATrie c K V) : (t.ren f).addrs = t.addrs.map f := t.root.addrs_ren f

theorem ren_congr {f g : Nat → Nat} {t : ATrie c K V} : t.ren f = t.ren g ↔ ∀ a ∈ t.addrs, f a = g a := by
  simp only [ATrie.ren, ATrie.mk.injEq]
  exact ANode.ren_congr

theorem ren_ren (f g : Nat → Nat) (t : ATrie c K V) : (t.ren f).ren g = t.ren fun a => g (f a) := by
  simp only [ATrie.ren, ANode.ren_ren]

theorem ren_id (t : ATrie c K V) : t.ren (fun a => a) = t := by simp only [ATrie.ren, ANode.ren_id]

theorem ren_eq_self {f : Nat → Nat} {t : ATrie c K V} (h : ∀ a ∈ t.addrs, f a = a) : t.ren f = t :=
  (ren_congr.2 h).trans t.ren_id

theorem eq_self_ren {f : Nat → Nat} {t : ATrie c K V} (h : t.ren f = t) : ∀ a ∈ t.addrs, f a = a :=
  ren_congr.1 (h.trans t.ren_id.symm)

theorem ren_erase (f : Nat → Nat) (t : ATrie c K V) : (t.ren f).erase = t.erase := by
  simp only [ATrie.ren, ATrie.erase, ANode.ren_erase]

end ATrie

/-! ### Closures that only ask -/

variable (φ : Shift)

theorem MapTransform.asking_free (o : MapTransform R Unit) :
    (o.asking : MapTransform R (K → V → Prog (K × V) (fun _ => MapTransformResult V R) (MapTransformResult V R))).Free φ := by
  intro F hF k v
  cases o <;> first | (injection hF with hF; subst hF; exact .ask _) | cases hF

theorem MapTransmute.asking_free (o : MapTransmute R Unit) :
    (o.asking : MapTransmute R (K → V → Prog (K × V) (fun _ => MapTransmuteResult K V R) (MapTransmuteResult K V R))).Free
      φ := by
  intro F hF k v
  cases o <;> first | (injection hF with hF; subst hF; exact .ask _) | cases hF

theorem TwmKinds.asking_free {L W : Type} (o : TwmKinds R) :
    (o.asking : TwmOpsM _ (TwmAnswer K V L W R) K V L W R).Free φ where
  both := by
    intro F hF k v l w
    obtain ⟨b, _, _⟩ := o
    cases b <;> first | (injection hF with hF; subst hF; exact .ask (A := TwmAnswer K V L W R) (.both (k, v) (l, w))) | cases hF
  left := by
    intro F hF k v
    obtain ⟨_, b, _⟩ := o
    cases b <;> first | (injection hF with hF; subst hF; exact .ask (A := TwmAnswer K V L W R) (.left (k, v))) | cases hF
  right := by
    intro F hF k v
    obtain ⟨_, _, b⟩ := o
    cases b <;> first | (injection hF with hF; subst hF; exact .ask (A := TwmAnswer K V L W R) (.right (k, v))) | cases hF

theorem MwtKinds.asking_free {L W : Type} (o : MwtKinds R) :
    (o.asking : MwtOpsM _ (MwtAnswer K V L W R) K V L W R).Free φ where
  both := by
    intro F hF k v l w
    obtain ⟨b, _, _⟩ := o
    cases b <;> first | (injection hF with hF; subst hF; exact .ask (A := MwtAnswer K V L W R) (.both (k, v) (l, w))) | cases hF
  left := by
    intro F hF k v
    obtain ⟨_, b, _⟩ := o
    cases b <;> first | (injection hF with hF; subst hF; exact .ask (A := MwtAnswer K V L W R) (.left (k, v))) | cases hF
  right := by
    intro F hF k v
    obtain ⟨_, _, b⟩ := o
    cases b <;> first | (injection hF with hF; subst hF; exact .ask (A := MwtAnswer K V L W R) (.right (k, v))) | cases hF

theorem MwmKinds.asking_free {L W S X : Type} (o : MwmKinds R) :
    (o.asking : MwmOpsM _ (MwmAnswer K V L W S X R) K V L W S X R).Free φ where
  both := by
    intro F hF k v l w
    obtain ⟨b, _, _⟩ := o
    cases b <;> first | (injection hF with hF; subst hF; exact .ask (A := MwmAnswer K V L W S X R) (.both (k, v) (l, w))) | cases hF
  left := by
    intro F hF k v
    obtain ⟨_, b, _⟩ := o
    cases b <;> first | (injection hF with hF; subst hF; exact .ask (A := MwmAnswer K V L W S X R) (.left (k, v))) | cases hF
  right := by
    intro F hF k v
    obtain ⟨_, _, b⟩ := o
    cases b <;> first | (injection hF with hF; subst hF; exact .ask (A := MwmAnswer K V L W S X R) (.right (k, v))) | cases hF

theorem TwtKinds.asking_free (o : TwtKinds R) :
    (o.asking : TwtOpsM _ (TwtAnswer K V R) K V R).Free φ where
  both := by
    intro F f hF k v l w
    obtain ⟨b, _, _⟩ := o
    cases b <;> first | (injection hF with hF; subst hF; exact .ask (A := TwtAnswer K V R) (.both (k, v) (l, w))) | cases hF
  left := by
    intro F hF k v
    obtain ⟨_, b, _⟩ := o
    cases b <;> first | (injection hF with hF; subst hF; exact .ask (A := TwtAnswer K V R) (.left (k, v))) | cases hF
  right := by
    intro F hF k v
    obtain ⟨_, _, b⟩ := o
    cases b <;> first | (injection hF with hF; subst hF; exact .ask (A := TwtAnswer K V R) (.right (k, v))) | cases hF

/-! ### Runs -/

/-- The same outcome, up to `P`. -/
inductive Outcome.Rel {Q α β : Type} (P : α → β → Prop) : Outcome Q α → Outcome Q β → Prop
  | ret {a : α} {b : β} : P a b → Rel P (.ret a) (.ret b)
  | panic (p : Panic) : Rel P (.panic p) (.panic p)
  | diverge : Rel P .diverge .diverge
  | closure (q : Q) : Rel P (.closure q) (.closure q)

theorem Tree.Rel.run {Q : Type} {A : Q → Type} {α β σ : Type} {P : α → β → Prop} {x : Tree Q A α} {y : Tree Q A β}
    (h : x.Rel P y) (env : (q : Q) → σ → Option (A q × σ)) (st : σ) :
    (x.run env st).2 = (y.run env st).2 ∧ (x.run env st).1.Rel (fun a b => P a.1 b.1 ∧ a.2 = b.2) (y.run env st).1 := by
  induction h generalizing st with
  | ret h => exact ⟨rfl, .ret ⟨h, rfl⟩⟩
  | panic p => exact ⟨rfl, .panic p⟩
  | diverge => exact ⟨rfl, .diverge⟩
  | ask q _ ih =>
    unfold Tree.run
    cases env q st with
    | none => exact ⟨rfl, .closure q⟩
    | some p =>
      obtain ⟨a, st'⟩ := p
      exact ⟨congrArg _ (ih a st').1, (ih a st').2⟩

theorem bulk_ren {Q : Type} {A : Q → Type} {dst : Var} {mk : Outcome Q (R × St) → List (Reply Q A) → TObs K V R St}
    {x y : Prog Q A (ATrie c K V × R)} (h : Prog.Ren φ (Is (ATrie.renR φ.f)) x y) {s : Nat} (hs : φ.base ≤ s)
    (env : (q : Q) → St → Option (A q × St)) (st : St) :
    bulk dst mk (y.run (φ.f s) env st) =
      ((bulk dst mk (x.run s env st)).1, (bulk dst mk (x.run s env st)).2.ren φ.f) := by
  obtain ⟨h1, h2⟩ := (h s hs).run env st
  unfold bulk Prog.run
  rw [← h1]
  generalize (x s).run env st = u at h2
  generalize (y (φ.f s)).run env st = v at h2
  obtain ⟨u, l⟩ := u
  obtain ⟨v, l'⟩ := v
  simp only at h2 ⊢
  cases h2 with
  | ret h =>
    obtain ⟨⟨h, _⟩, h'⟩ := h
    simp only [Outcome.told, Outcome.kept, TEffect.ren, Option.map_some, h, h', ATrie.renR]
  | panic p => rfl
  | diverge => rfl
  | closure q => rfl

/-! ### Calls -/

/-- The maps at other addresses. -/
def Store.ren (f : Nat → Nat) (σ : Store c Var K V) : Store c Var K V := fun x => (σ x).map (ATrie.ren f)

variable [BEq K] (hash : K → BitVec c.w)

omit [BEq K] in
theorem on1_ren {f : Nat → Nat} (t : Option (ATrie c K V)) {F G : ATrie c K V → TObs K V R St × TEffect c Var K V}
    (h : ∀ u, G (u.ren f) = ((F u).1, (F u).2.ren f)) :
    on1 (t.map (ATrie.ren f)) G = ((on1 t F).1, (on1 t F).2.ren f) := by
  cases t with
  | none => rfl
  | some t => exact h t

omit [BEq K] in
theorem on2_ren {f : Nat → Nat} (t u : Option (ATrie c K V))
    {F G : ATrie c K V → ATrie c K V → TObs K V R St × TEffect c Var K V}
    (h : ∀ t' u', t = some t' → u = some u' → G (t'.ren f) (u'.ren f) = ((F t' u').1, (F t' u').2.ren f)) :
    on2 (t.map (ATrie.ren f)) (u.map (ATrie.ren f)) G = ((on2 t u F).1, (on2 t u F).2.ren f) := by
  cases t with
  | none => rfl
  | some t =>
    cases u with
    | none => rfl
    | some u => exact h t u rfl rfl

/-- A call on the same maps at other addresses tells the same, and does the same up to addresses. -/
theorem TCall.eval_ren (call : TCall Var K V R St) (σ : Store c Var K V) {s : Nat} (hs : φ.base ≤ s)
    (hinj : ∀ x ∈ call.reads, ∀ y ∈ call.reads, ∀ t u, σ x = some t → σ y = some u → ∀ a ∈ t.addrs, ∀ b ∈ u.addrs,
      φ.f a = φ.f b → a = b) :
    call.eval hash (σ.ren φ.f) (φ.f s) = ((call.eval hash σ s).1, (call.eval hash σ s).2.ren φ.f) := by
  cases call with
  | new d =>
    have := ATrie.new_ren (c := c) (K := K) (V := V) (φ := φ) s hs
    unfold TCall.eval
    generalize (ATrie.new c s : Res (ATrie c K V × Nat)) = u at this
    generalize (ATrie.new c (φ.f s) : Res (ATrie c K V × Nat)) = v at this
    cases this with
    | ok h => obtain ⟨h, _⟩ := h; simp only [newOut, TEffect.ren, Option.map_some, h]
    | panic p => rfl
    | diverge => rfl
  | clone x d => exact on1_ren _ fun t => rfl
  | drop x => exact on1_ren _ fun t => rfl
  | insert x k v replace d =>
    refine on1_ren _ fun t => ?_
    have := t.insert_ren (hash := hash) (φ := φ) k v replace s hs
    generalize t.insert hash k v replace s = u at this
    generalize (t.ren φ.f).insert hash k v replace (φ.f s) = w at this
    cases this with
    | @ok a b h =>
      obtain ⟨a, _⟩ := a
      obtain ⟨b, _⟩ := b
      obtain ⟨h, _⟩ := h
      simp only [Is] at h
      subst h
      cases a with
      | error e => rfl
      | ok a => rfl
    | panic p => rfl
    | diverge => rfl
  | remove x k d =>
    refine on1_ren _ fun t => ?_
    have := t.remove_ren (hash := hash) (φ := φ) k s hs
    generalize t.remove hash k s = u at this
    generalize (t.ren φ.f).remove hash k (φ.f s) = w at this
    cases this with
    | @ok a b h =>
      obtain ⟨a, _⟩ := a
      obtain ⟨b, _⟩ := b
      obtain ⟨h, _⟩ := h
      simp only [Is] at h
      subst h
      cases a with
      | none => rfl
      | some a => rfl
    | panic p => rfl
    | diverge => rfl
  | find x k => exact on1_ren _ fun t => by rw [ATrie.ren_erase]; rfl
  | size x => exact on1_ren _ fun t => by rw [ATrie.ren_erase]; rfl
  | visit x => exact on1_ren _ fun t => by rw [ATrie.ren_erase]; rfl
  | eq x y =>
    refine on2_ren _ _ fun t u ht hu => ?_
    have := ANode.eq_ren (f := φ.f) (m := t.root) (m' := u.root)
      (hinj x (by simp [TCall.reads]) y (by simp [TCall.reads]) t u ht hu _ t.root.addr_mem _ u.root.addr_mem)
    simp only [ATrie.eq, ATrie.ren, this]
    rfl
  | transform x reduce e o par env st d =>
    exact on1_ren _ fun t => bulk_ren φ (t.transformE_ren reduce e (o.asking_free φ) par) hs env st
  | transmute x reduce e o env st d =>
    exact on1_ren _ fun t => bulk_ren φ (t.transmuteE_ren reduce e (o.asking_free φ)) hs env st
  | transformWithTransformed x y reduce e o par env st d =>
    exact on2_ren _ _ fun t u _ _ => bulk_ren φ (ATrie.twtE_ren reduce e hash (o.asking_free φ) par t u) hs env st
  | transformWithTransmuted x y reduce e o par env st d =>
    exact on2_ren _ _ fun t u _ _ => bulk_ren φ (ATrie.twmE_ren _ reduce e (o.asking_free φ) par t u) hs env st
  | transmuteWithTransformed x y reduce e o par env st d =>
    exact on2_ren _ _ fun t u _ _ => bulk_ren φ (ATrie.mwtE_ren _ reduce e (o.asking_free φ) par t u) hs env st
  | transmuteWithTransmuted x y reduce e o env st d =>
    exact on2_ren _ _ fun t u _ _ => bulk_ren φ (ATrie.mwmE_ren _ reduce e (o.asking_free φ) t u) hs env st

/-- A call depends on nothing but the maps it reads. -/
theorem TCall.eval_congr (call : TCall Var K V R St) {σ τ : Store c Var K V} (s : Nat)
    (h : ∀ x ∈ call.reads, σ x = τ x) : call.eval hash σ s = call.eval hash τ s := by
  cases call with
  | new d => rfl
  | _ =>
    simp only [TCall.reads, List.mem_cons, List.not_mem_nil, or_false, forall_eq_or_imp, forall_eq] at h
    simp only [TCall.eval, h]

/-- A call writes what `writes` says. -/
theorem TCall.eval_writes (call : TCall Var K V R St) (σ : Store c Var K V) (s : Nat) {x : Var}
    {t : Option (ATrie c K V)} (h : (call.eval hash σ s).2 = some (x, t)) : x ∈ call.writes := by
  have b : ∀ {Q : Type} {A : Q → Type} {dst : Var} {mk : Outcome Q (R × St) → List (Reply Q A) → TObs K V R St}
      {run : Outcome Q (((ATrie c K V × R) × Nat) × St) × List (Reply Q A)},
      (bulk dst mk run).2 = some (x, t) → x = dst := by
    intro Q A dst mk run h
    unfold bulk Outcome.kept at h
    simp only at h
    split at h
    · injection h with h; injection h with h1 h2; exact h1.symm
    · cases h
  have o1 : ∀ {u : Option (ATrie c K V)} {F : ATrie c K V → TObs K V R St × TEffect c Var K V} {P : Prop},
      (on1 u F).2 = some (x, t) → (∀ u, (F u).2 = some (x, t) → P) → P := by
    intro u F P h k
    cases u with
    | none => cases h
    | some u => exact k u h
  have o2 : ∀ {u w : Option (ATrie c K V)} {F : ATrie c K V → ATrie c K V → TObs K V R St × TEffect c Var K V} {P : Prop},
      (on2 u w F).2 = some (x, t) → (∀ u w, (F u w).2 = some (x, t) → P) → P := by
    intro u w F P h k
    cases u with
    | none => cases h
    | some u =>
      cases w with
      | none => cases h
      | some w => exact k u w h
  cases call with
  | new d =>
    simp only [TCall.eval, newOut] at h
    split at h
    · injection h with h; injection h with h1 h2; simp [TCall.writes, h1]
    · cases h
  | clone y d => exact o1 h fun u h => by injection h with h; injection h with h1 h2; simp [TCall.writes, h1]
  | drop y => exact o1 h fun u h => by injection h with h; injection h with h1 h2; simp [TCall.writes, h1]
  | insert y k v replace d =>
    refine o1 h fun u h => ?_
    unfold insertOut at h
    split at h
    · injection h with h; injection h with h1 h2; simp [TCall.writes, h1]
    all_goals cases h
  | remove y k d =>
    refine o1 h fun u h => ?_
    unfold removeOut at h
    split at h
    · injection h with h; injection h with h1 h2; simp [TCall.writes, h1]
    all_goals cases h
  | find y k => exact o1 h fun u h => by cases h
  | size y => exact o1 h fun u h => by cases h
  | visit y => exact o1 h fun u h => by cases h
  | eq y z => exact o2 h fun u w h => by cases h
  | transform y reduce e o par env st d => exact o1 h fun u h => by simp [TCall.writes, b h]
  | transmute y reduce e o env st d => exact o1 h fun u h => by simp [TCall.writes, b h]
  | transformWithTransformed y z reduce e o par env st d => exact o2 h fun u w h => by simp [TCall.writes, b h]
  | transformWithTransmuted y z reduce e o par env st d => exact o2 h fun u w h => by simp [TCall.writes, b h]
  | transmuteWithTransformed y z reduce e o par env st d => exact o2 h fun u w h => by simp [TCall.writes, b h]
  | transmuteWithTransmuted y z reduce e o env st d => exact o2 h fun u w h => by simp [TCall.writes, b h]

/-- An address below `s` in the map a call returns is an address of a map it read. -/
theorem TCall.eval_old (call : TCall Var K V R St) (σ : Store c Var K V) {s a : Nat} (ha : a < s)
    (h : (call.eval hash σ s).2.Has a) : ∃ x ∈ call.reads, ∃ t, σ x = some t ∧ a ∈ t.addrs := by
  classical
  by_cases hn : ∃ x ∈ call.reads, ∃ t, σ x = some t ∧ a ∈ t.addrs
  · exact hn
  · exfalso
    let φ : Shift := ⟨fun b => if b = a then a + 1 else b, s, by intro s' hs'; split <;> split <;> omega⟩
    have fixed : ∀ x ∈ call.reads, ∀ t, σ x = some t → ∀ b ∈ t.addrs, φ.f b = b := by
      intro x hx t ht b hb
      have : b ≠ a := fun e => hn ⟨x, hx, t, ht, e ▸ hb⟩
      show (if b = a then a + 1 else b) = b
      rw [if_neg this]
    have hsx : ∀ x ∈ call.reads, σ x = σ.ren φ.f x := by
      intro x hx
      unfold Store.ren
      cases ht : σ x with
      | none => rfl
      | some t => exact congrArg some (ATrie.ren_eq_self (fixed x hx t ht)).symm
    have key := call.eval_ren φ hash σ (Nat.le_refl s) (by
      intro x hx y hy t u ht hu b hb d hd e
      rw [fixed x hx t ht b hb, fixed y hy u hu d hd] at e
      exact e)
    have hfs : φ.f s = s := by show (if s = a then a + 1 else s) = s; rw [if_neg (by omega)]
    rw [hfs, ← call.eval_congr hash s hsx] at key
    obtain ⟨x, t, hp, hat⟩ := h
    have k2 := congrArg Prod.snd key
    rw [hp] at k2
    simp only [TEffect.ren, Option.map_some, Option.some.injEq, Prod.mk.injEq, true_and] at k2
    have := ATrie.eq_self_ren k2.symm a hat
    have h2 : φ.f a = a + 1 := by show (if a = a then a + 1 else a) = a + 1; rw [if_pos rfl]
    omega

end HT
