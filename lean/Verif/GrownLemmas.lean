import Verif.GrownSpec
import Verif.VisitLemmas
import Verif.Reach
import Verif.JointStall
/-!
# Maps made by insertions have one shape
-/
namespace HT

variable {K V : Type} {c : Cfg} {hash : K → BitVec c.w}

/-- No branch node holds keys of a single hash only. -/
inductive Node.Tight (hash : K → BitVec c.w) : Node c.n K V → Prop
  | S (s : SNode K V) : Node.Tight hash (.S s)
  | L (l : LNode K V) : Node.Tight hash (.L l)
  | C (bits : BitVec c.n) (values : List (Node c.n K V)) (extra : Nat)
      (two : ∃ a ∈ Node.visitAll values, ∃ b ∈ Node.visitAll values, hash a.1 ≠ hash b.1)
      (sub : ∀ m ∈ values, Node.Tight hash m) : Node.Tight hash (.C bits values extra)

/-- The root is a branch node, which may hold keys of a single hash or none. -/
def Trie.Tight (hash : K → BitVec c.w) (t : Trie c K V) : Prop :=
  ∃ bits values extra, t.root = .C bits values extra ∧ ∀ m ∈ values, Node.Tight hash m

theorem Bia.mem_slot {n : Nat} {α : Type} {a : Bia n α} (ok : a.Ok) {v : α} (hv : v ∈ a.values) :
    ∃ i, a.slot i = some v := by
  rw [Bia.values_eq a ok] at hv
  obtain ⟨i, _, hi⟩ := List.mem_filterMap.1 hv
  exact ⟨i, hi⟩

theorem liftC_tight {m1 m2 : Node c.n K V} (t1 : m1.Tight hash) (t2 : m2.Tight hash) {a b : K × V}
    (ha : a ∈ m1.visit) (hb : b ∈ m2.visit) (hne : hash a.1 ≠ hash b.1) (n : Nat) :
    ∀ (f1 f2 : Flag c), 8 * c.w - f1.depth < n →
    ∀ {m' : Node c.n K V}, liftC c m1 f1 m2 f2 = .ok m' → m'.Tight hash := by
  induction n with
  | zero => intro f1 f2 h; omega
  | succ n ih =>
    intro f1 f2 hn m' hl
    have hv := liftC_visit _ _ _ _ _ (Nat.lt_succ_self _) hl
    have two : ∃ a ∈ m'.visit, ∃ b ∈ m'.visit, hash a.1 ≠ hash b.1 := by
      refine ⟨a, ?_, b, ?_, hne⟩ <;> rcases hv with hv | hv <;> rw [hv] <;> simp [ha, hb]
    rw [liftC_unfold] at hl
    split at hl
    · obtain ⟨o, ho, hl⟩ := Res.bind_eq_ok.1 hl
      obtain ⟨tf, htf, hl⟩ := Res.bind_eq_ok.1 hl
      obtain ⟨o', ho', hl⟩ := Res.bind_eq_ok.1 hl
      obtain ⟨rf, hrf, hl⟩ := Res.bind_eq_ok.1 hl
      obtain ⟨inner, hin, hl⟩ := Res.bind_eq_ok.1 hl
      obtain ⟨a, ha, hl⟩ := Res.bind_eq_ok.1 hl
      obtain ⟨a', ha', hl⟩ := Res.bind_eq_ok.1 hl
      have := Bia.ofVec_inv (a := a') c.n_le (l := [inner]) (by rw [ha]; exact ha')
      injection hl with hl
      subst this; subst hl
      have hd : 8 * c.w - tf.depth < n := by
        cases o with
        | none => simp [Res.unwrap] at htf
        | some x =>
          rw [Res.unwrap_some] at htf; injection htf with htf; subst htf
          simp only [Flag.next, Flag.newAtDepth] at ho
          split at ho
          · simp at ho
          · have hb := c.bpos
            simp only [Res.bind_eq_ok] at ho
            obtain ⟨y, _, z, _, hz⟩ := ho
            injection hz with hz; injection hz with hz; subst hz
            have : f1.depth + 1 ≤ (f1.depth + 1) * c.b := Nat.le_mul_of_pos_right _ hb
            show 8 * c.w - (f1.depth + 1) < n
            omega
      have := ih tf rf hd hin
      exact .C _ _ _ two (by simpa using this)
    · obtain ⟨fl, hfl, hl⟩ := Res.bind_eq_ok.1 hl
      obtain ⟨i, hi, hl⟩ := Res.bind_eq_ok.1 hl
      obtain ⟨a, ha, hl⟩ := Res.bind_eq_ok.1 hl
      obtain ⟨a', ha', hl⟩ := Res.bind_eq_ok.1 hl
      have := Bia.ofVec_inv (a := a') c.n_le (l := if i = 0 then [m1, m2] else [m2, m1])
        (by rw [ha]; exact ha')
      injection hl with hl
      subst this; subst hl
      refine .C _ _ _ two ?_
      by_cases h0 : i = 0 <;> simp [h0, t1, t2]

section
variable [BEq K] {q : K → Bool} {k : K} {v : V} {replace : Bool}

theorem liftL_tight {this : LNext K V} {e : K × V} (he : e ∈ (this.toNode : Node c.n K V).visit)
    (hs : hash e.1 = hash this.key) {f : Flag c} (hf : f.hashValue = hash k)
    {m' : Node c.n K V} {ptr : K × V} {prev : Option (K × V)}
    (hr : liftL c hash this k v f = .ok (.inserted m' ptr prev)) : m'.Tight hash := by
  unfold liftL at hr
  simp only at hr
  split at hr
  · injection hr with hr; injection hr with hr; subst hr
    exact .L _
  · rename_i hne
    rw [hf] at hne
    obtain ⟨o, ho, hr⟩ := Res.bind_eq_ok.1 hr
    obtain ⟨tf, htf, hr⟩ := Res.bind_eq_ok.1 hr
    obtain ⟨m, hm, hr⟩ := Res.bind_eq_ok.1 hr
    injection hr with hr; injection hr with hr; subst hr
    refine liftC_tight ?_ (.S _) he (b := (k, v)) (by simp [Node.visit, SNode.visit]) (by rw [hs]; exact hne) _ _ _
      (Nat.lt_succ_self _) hm
    cases this
    · exact .L _
    · exact .S _

/-- Insertion keeps a hash of every entry. -/
theorem insert_keeps {m m' : Node c.n K V} (hq : Query hash q (hash k))
    (hg : SameGroups hash m'.visit ((k, v) :: m.visit.filter (fun e => !q e.1))) {a : K × V} (ha : a ∈ m.visit) :
    ∃ a' ∈ m'.visit, hash a'.1 = hash a.1 := by
  cases h : q a.1 with
  | true => exact ⟨(k, v), hg.symm.mem (List.mem_cons_self ..), (hq.hash _ h).symm⟩
  | false => exact ⟨a, hg.symm.mem (List.mem_cons_of_mem _ (List.mem_filter.2 ⟨ha, by simp [h]⟩)), rfl⟩

theorem Node.insert_tight (hq : Query hash q (hash k)) {mx d : Nat} (lim : ∀ d, d < mx → d * c.b < c.w)
    {m : Node c.n K V} (wf : m.WF hash mx d) (tm : m.Tight hash) {flag : Option (Flag c)}
    (hf : FlagFor (hash k) d flag) {m' : Node c.n K V} {ptr : K × V} {prev : Option (K × V)}
    (hr : m.insert c hash q k v replace flag = .ok (.inserted m' ptr prev)) : m'.Tight hash := by
  have hg := Node.insert_groups hq lim wf hf hr
  induction wf generalizing flag m' with
  | S d s =>
    rw [Node.insert, SNode.insert] at hr
    cases hs : q s.key with
    | true =>
      rw [hs] at hr
      cases replace with
      | true =>
        injection hr with hr; injection hr with hr; subst hr
        exact .S _
      | false => simp at hr
    | false =>
      rw [hs] at hr
      obtain ⟨f, hf', hr⟩ := Res.bind_eq_ok.1 hr
      obtain ⟨f', rfl, hf1, _, _⟩ := hf
      rw [Res.unwrap_some] at hf'; injection hf' with hf'; subst hf'
      exact liftL_tight (this := .S s) (e := (s.key, s.value)) (by simp [LNext.toNode, Node.visit, SNode.visit]) rfl hf1 hr
  | L d l wl =>
    rw [Node.insert, LNode.insert] at hr
    cases hfd : l.find q with
    | some e =>
      rw [hfd] at hr
      cases replace with
      | false => simp at hr
      | true =>
        simp only [if_true] at hr
        cases hrr : l.removeFrom q with
        | notFound => rw [hrr] at hr; simp at hr
        | removedL l' k' v' =>
          rw [hrr] at hr
          injection hr with hr; injection hr with hr; subst hr
          exact .L _
        | removedS s' k' v' =>
          rw [hrr] at hr
          injection hr with hr; injection hr with hr; subst hr
          exact .L _
    | none =>
      rw [hfd] at hr
      obtain ⟨f, hf', hr⟩ := Res.bind_eq_ok.1 hr
      obtain ⟨f', rfl, hf1, _, _⟩ := hf
      rw [Res.unwrap_some] at hf'; injection hf' with hf'; subst hf'
      have hne : l.visit ≠ [] := by
        have := LNode.two_le l
        intro h; rw [h] at this; simp at this
      obtain ⟨e, he⟩ := List.exists_mem_of_ne_nil _ hne
      exact liftL_tight (this := .L l) he (wl.hash e he) hf1 hr
  | C d bits values extra hd ok sz ne at_ sub ih =>
    obtain ⟨f, rfl, hf1, hf2, hf3⟩ := hf
    have hlt := lim d hd
    have hff := hf3 hlt
    subst hff
    obtain ⟨a', m1', rfl, ok', hslot, hcase⟩ := Node.insert_C_inv ok hr
    cases tm with
    | C _ _ _ two tsub =>
      refine .C _ _ _ ?_ ?_
      · obtain ⟨a, ha, b, hb, hab⟩ := two
        obtain ⟨a1, ha1, ha2⟩ := insert_keeps (m := .C bits values extra) hq hg ha
        obtain ⟨b1, hb1, hb2⟩ := insert_keeps (m := .C bits values extra) hq hg hb
        exact ⟨a1, ha1, b1, hb1, by rw [ha2, hb2]; exact hab⟩
      · intro m hm
        obtain ⟨i, hi⟩ := Bia.mem_slot ok' hm
        rw [hslot] at hi
        split at hi
        · injection hi with hi; subst hi
          rcases hcase with ⟨h1, rfl⟩ | ⟨m1, nx, h1, h2, h3⟩
          · exact .S _
          · have hnf : FlagFor (hash k) (d + 1) nx := by
              rcases next_cases (hash k) hlt with ⟨nx', hnx, hnf⟩ | ⟨_, _, hnx⟩
              · rw [h2] at hnx; injection hnx with hnx; subst hnx; exact hnf
              · rw [h2] at hnx; simp at hnx
            exact ih _ _ h1 (tsub _ (Bia.slot_mem h1)) hnf h3 (Node.insert_groups hq lim (sub _ _ h1) hnf h3)
        · exact tsub _ (Bia.slot_mem hi)

theorem Trie.insertQ_tight {t t' : Trie c K V} (h : t.ValidAt hash c.levels) (ti : t.Tight hash)
    (hq : Query hash q (hash k)) {ptr : K × V} {prev : Option (K × V)}
    (hr : t.insertQ hash q (hash k) k v replace = .ok (.ok (t', ptr, prev))) : t'.Tight hash := by
  rw [Trie.insertQ, Flag.new_eq] at hr
  simp only [Res.ok_bind] at hr
  obtain ⟨r, hr1, hr⟩ := Res.bind_eq_ok.1 hr
  cases r with
  | found a b => simp at hr
  | inserted m a b =>
    injection hr with hr; injection hr with hr; injection hr with hr _; subst hr
    obtain ⟨bits, values, extra, e, tsub⟩ := ti
    rw [Trie.ValidAt, e] at h
    rw [e] at hr1
    cases h with
    | C _ _ _ _ hd ok sz ne at_ sub =>
      obtain ⟨a', m1', rfl, ok', hslot, hcase⟩ := Node.insert_C_inv ok hr1
      refine ⟨_, _, _, rfl, ?_⟩
      intro m hm
      obtain ⟨i, hi⟩ := Bia.mem_slot ok' hm
      rw [hslot] at hi
      split at hi
      · injection hi with hi; subst hi
        rcases hcase with ⟨h1, rfl⟩ | ⟨m1, nx, h1, h2, h3⟩
        · exact .S _
        · have hnf : FlagFor (hash k) 1 nx := by
            rcases next_cases (hash k) (c.levels_within 0 hd) with ⟨nx', hnx, hnf⟩ | ⟨_, _, hnx⟩
            · rw [h2] at hnx; injection hnx with hnx; subst hnx; exact hnf
            · rw [h2] at hnx; simp at hnx
          exact Node.insert_tight hq c.levels_within (sub _ _ h1) (tsub _ (Bia.slot_mem h1)) hnf h3
      · exact tsub _ (Bia.slot_mem hi)

theorem Grown.reach {t : Trie c K V} (h : Grown hash t) : Reach c hash t := by
  induction h with
  | new laws => exact .new laws
  | insert _ hq hk hr ih => exact .insert ih hq hk hr

theorem Grown.tight {t : Trie c K V} (h : Grown hash t) : t.Tight hash := by
  induction h with
  | new laws => exact ⟨_, _, _, rfl, by simp [Node.default, Bia.default]⟩
  | insert h hq hk hr ih => exact Trie.insertQ_tight h.reach.valid ih hq hr

end
end HT
