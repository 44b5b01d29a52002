import Verif.JointStall
import Verif.TrieLemmas
/-! # Joint operations on maps -/
namespace HT

variable {K V L W S X R : Type} [BEq K] [BEq L] [BEq S] {c : Cfg} {x : Cross c K L}

/-- At the root nothing is required of the hashes. -/
theorem agree_root {A B : Type} {as : List A} {bs : List B} {f : A → BitVec c.w} {g : B → BitVec c.w} :
    ∀ a ∈ as, ∀ b ∈ bs, Agree c 0 (f a) (g b) := by
  intro a _ b _
  exact Agree.zero _ _

theorem Trie.twm_spec (laws : CrossLaws x) {ops : TwmOps K V L W R} (con : ops.Contract x)
    (reduce : R → R → R) (e : R) (par : Par) {t : Trie c K V} (ht : t.Valid x.hash) {u : Trie c L W}
    (hu : u.Valid x.hash') (ns : NoStall x t.visit u.visit) :
    ∃ t' r, Trie.twm x reduce e ops par t u = .ok (t', r) ∧ t'.Valid x.hash ∧
      t'.visit.Perm ((x.cases t.visit u.visit).filterMap ops.out) ∧
      (CMon reduce e → ops.Neutral e → r = total reduce e ((x.cases t.visit u.visit).map ops.red)) := by
  obtain ⟨res, h1, g⟩ := Node.twm_spec laws con reduce e par ht hu agree_root ns
  have ho := g.real.outs.fn (f := ops.out) (fun _ _ h => h)
  have hr := fun cm nu => g.real.red ⟨cm, nu⟩
  simp only [Trie.twm, h1, Res.ok_bind]
  cases res with
  | unchanged r => exact ⟨_, _, rfl, ht, ho, hr⟩
  | node m r => exact ⟨_, _, rfl, g.wf m rfl, ho, hr⟩
  | removed r => exact ⟨_, _, rfl, Trie.new_valid c.levels_pos, ho, hr⟩

theorem Trie.mwt_spec (laws : CrossLaws x) {ops : MwtOps K V L W R} (con : ops.Contract x)
    (reduce : R → R → R) (e : R) (par : Par) {t : Trie c K V} (ht : t.Valid x.hash) {u : Trie c L W}
    (hu : u.Valid x.hash') (ns : NoStall x.flip u.visit t.visit) :
    ∃ t' r, Trie.mwt x reduce e ops par t u = .ok (t', r) ∧ t'.Valid x.hash' ∧
      t'.visit.Perm ((x.cases t.visit u.visit).filterMap ops.out) ∧
      (CMon reduce e → ops.Neutral e → r = total reduce e ((x.cases t.visit u.visit).map ops.red)) := by
  obtain ⟨res, h1, g⟩ := Node.mwt_spec laws con reduce e par ht hu agree_root ns
  have ho := g.real.outs.fn (f := ops.out) (fun _ _ h => h)
  have hr := fun cm nu => g.real.red ⟨cm, nu⟩
  simp only [Trie.mwt, h1, Res.ok_bind]
  cases res with
  | unchanged r => exact ⟨_, _, rfl, hu, ho, hr⟩
  | node m r => exact ⟨_, _, rfl, g.wf m rfl, ho, hr⟩
  | removed r => exact ⟨_, _, rfl, Trie.new_valid c.levels_pos, ho, hr⟩

theorem Trie.mwm_spec (laws : CrossLaws x) {hashS : S → BitVec c.w} (lawsS : KeyLaws hashS)
    {ops : MwmOps K V L W S X R} (con : ops.Contract x hashS)
    (reduce : R → R → R) (e : R) {t : Trie c K V} (ht : t.Valid x.hash) {u : Trie c L W}
    (hu : u.Valid x.hash') (ns : NoStall x t.visit u.visit) (ns' : NoStall x.flip u.visit t.visit) :
    ∃ t' r, Trie.mwm x reduce e ops t u = .ok (t', r) ∧ t'.Valid hashS ∧
      t'.visit.Perm ((x.cases t.visit u.visit).filterMap ops.out) ∧
      (CMon reduce e → ops.Neutral e → r = total reduce e ((x.cases t.visit u.visit).map ops.red)) := by
  obtain ⟨res, h1, g⟩ := Node.mwm_spec laws lawsS con reduce e ht hu agree_root ns ns'
  have ho := g.real.outs.fn (f := ops.out) (fun _ _ h => h)
  have hr := fun cm nu => g.real.red ⟨cm, nu⟩
  simp only [Trie.mwm, h1, Res.ok_bind]
  cases res with
  | node m r => exact ⟨_, _, rfl, g.wf m rfl, ho, hr⟩
  | removed r => exact ⟨_, _, rfl, Trie.new_valid c.levels_pos, ho, hr⟩

/-! ### Not returning -/

theorem Trie.twm_stall (laws : CrossLaws x) {ops : TwmOps K V L W R} (con : ops.Contract x)
    (reduce : R → R → R) (e : R) (par : Par) {t : Trie c K V} (ht : t.Valid x.hash) {u : Trie c L W}
    (hu : u.Valid x.hash') (ns : ¬ NoStall x t.visit u.visit) :
    Trie.twm x reduce e ops par t u = .diverge := by
  rw [Trie.twm, Node.twm_stall laws con reduce e par ht hu agree_root ns]; rfl

theorem Trie.mwt_stall (laws : CrossLaws x) {ops : MwtOps K V L W R} (con : ops.Contract x)
    (reduce : R → R → R) (e : R) (par : Par) {t : Trie c K V} (ht : t.Valid x.hash) {u : Trie c L W}
    (hu : u.Valid x.hash') (ns : ¬ NoStall x.flip u.visit t.visit) :
    Trie.mwt x reduce e ops par t u = .diverge := by
  rw [Trie.mwt, Node.mwt_stall laws con reduce e par ht hu agree_root ns]; rfl

theorem Trie.mwm_total (laws : CrossLaws x) {hashS : S → BitVec c.w} (lawsS : KeyLaws hashS)
    {ops : MwmOps K V L W S X R} (con : ops.Contract x hashS)
    (reduce : R → R → R) (e : R) {t : Trie c K V} (ht : t.Valid x.hash) {u : Trie c L W}
    (hu : u.Valid x.hash') :
    (Trie.mwm x reduce e ops t u = .diverge ∧ Node.Stuck x t.root u.root) ∨
    ∃ t' r, Trie.mwm x reduce e ops t u = .ok (t', r) ∧ t'.Valid hashS ∧
      t'.visit.Perm ((x.cases t.visit u.visit).filterMap ops.out) ∧
      (CMon reduce e → ops.Neutral e → r = total reduce e ((x.cases t.visit u.visit).map ops.red)) := by
  rcases Node.mwm_total laws lawsS con reduce e ht hu agree_root with ⟨h, st⟩ | ⟨res, h1, g⟩
  · left; exact ⟨by rw [Trie.mwm, h]; rfl, st⟩
  right
  have ho := g.real.outs.fn (f := ops.out) (fun _ _ h => h)
  have hr := fun cm nu => g.real.red ⟨cm, nu⟩
  simp only [Trie.mwm, h1, Res.ok_bind]
  cases res with
  | node m r => exact ⟨_, _, rfl, g.wf m rfl, ho, hr⟩
  | removed r => exact ⟨_, _, rfl, Trie.new_valid c.levels_pos, ho, hr⟩

/-! ### transform_with_transformed -/

theorem Trie.twt_total {hash : K → BitVec c.w} (laws : KeyLaws hash) {ops : TwtOps K V R}
    (reduce : R → R → R) (e : R) (par : Par) {t u : Trie c K V} (ht : t.Valid hash)
    (hu : u.Valid hash) (tame : ops.Tame hash t.visit u.visit) :
    (Trie.twt reduce e hash ops par t u = .diverge ∧ Node.Stuck (Cross.same hash) t.root u.root) ∨
    ∃ t' r, Trie.twt reduce e hash ops par t u = .ok (t', r) ∧ t'.Valid hash ∧
      (ops.sem reduce e).Outs ((Cross.same hash).cases t.visit u.visit) t'.visit ∧
      (CMon reduce e → ops.Neutral e →
        r = total reduce e (((Cross.same hash).cases t.visit u.visit).map ops.red)) := by
  rcases Node.twt_total laws reduce e par ht hu agree_root tame with ⟨h, st⟩ | ⟨res, h1, g⟩
  · left; exact ⟨by rw [Trie.twt, h]; rfl, st⟩
  right
  simp only [Trie.twt, h1, Res.ok_bind]
  have use : ∀ o, o ∈ res.gives t.root u.root →
      (ops.sem reduce e).Outs ((Cross.same hash).cases t.visit u.visit) (vis o) ∧
      (CMon reduce e → ops.Neutral e →
        res.red = total reduce e (((Cross.same hash).cases t.visit u.visit).map ops.red)) :=
    fun o ho => ⟨(g o ho).real.outs, fun cm nu => (g o ho).real.red ⟨cm, nu⟩⟩
  cases res with
  | unchangedLR r =>
    obtain ⟨ho, hr⟩ := use (some t.root) (by simp [JRes.gives])
    exact ⟨_, _, rfl, ht, ho, hr⟩
  | unchangedL r =>
    obtain ⟨ho, hr⟩ := use (some t.root) (by simp [JRes.gives])
    exact ⟨_, _, rfl, ht, ho, hr⟩
  | unchangedR r =>
    obtain ⟨ho, hr⟩ := use (some u.root) (by simp [JRes.gives])
    exact ⟨_, _, rfl, hu, ho, hr⟩
  | node m r =>
    obtain ⟨ho, hr⟩ := use (some m) (by simp [JRes.gives])
    exact ⟨_, _, rfl, (g (some m) (by simp [JRes.gives])).wf m rfl, ho, hr⟩
  | removed r =>
    obtain ⟨ho, hr⟩ := use none (by simp [JRes.gives])
    exact ⟨_, _, rfl, Trie.new_valid c.levels_pos, ho, hr⟩

theorem Trie.twt_spec {hash : K → BitVec c.w} (laws : KeyLaws hash) {ops : TwtOps K V R}
    (reduce : R → R → R) (e : R) (par : Par) {t u : Trie c K V} (ht : t.Valid hash)
    (hu : u.Valid hash) (tame : ops.Tame hash t.visit u.visit)
    (ns : NoStall (Cross.same hash) t.visit u.visit) (ns' : NoStall (Cross.same hash) u.visit t.visit) :
    ∃ t' r, Trie.twt reduce e hash ops par t u = .ok (t', r) ∧ t'.Valid hash ∧
      (ops.sem reduce e).Outs ((Cross.same hash).cases t.visit u.visit) t'.visit ∧
      (CMon reduce e → ops.Neutral e →
        r = total reduce e (((Cross.same hash).cases t.visit u.visit).map ops.red)) := by
  rcases Trie.twt_total laws reduce e par ht hu tame with ⟨h, _⟩ | h
  · obtain ⟨res, h1, g⟩ := Node.twt_spec laws reduce e par ht hu agree_root tame ns ns'
    simp only [Trie.twt, h1, Res.ok_bind] at h
    cases res <;> simp at h
  · exact h

omit [BEq L] [BEq S] in
/-- Without collisions between the operands every answer is tame. -/
theorem TwtOps.tame_of_apart {hash : K → BitVec c.w} (ops : TwtOps K V R) {as bs : List (K × V)}
    (h : Apart hash as bs) : ops.Tame hash as bs := by
  intro v
  have h1 := h v
  simp only [collisions_withHash] at h1
  refine ⟨fun h2 h3 => ?_, fun h2 h3 => ?_, fun h2 h3 => ?_⟩ <;> omega

omit [BEq L] [BEq S] in
theorem Apart.noStall {hash : K → BitVec c.w} {as bs : List (K × V)} (h : Apart hash as bs) :
    NoStall (Cross.same hash) as bs ∧ NoStall (Cross.same hash) bs as := by
  constructor
  · intro v h1
    have h1 : 2 ≤ collisions hash as v := h1
    have := h v
    show collisions hash bs v ≤ 2
    omega
  · intro v h1
    have h1 : 2 ≤ collisions hash bs v := h1
    have := h v
    show collisions hash as v ≤ 2
    omega

end HT
