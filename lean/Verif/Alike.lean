import Verif.JointExamples
import Verif.HistoryLemmas
/-! # Maps with the same contents -/
namespace HT

variable {K V L W : Type} [BEq K] [BEq L] {c : Cfg} {x : Cross c K L}

/-- The two maps answer every `find` alike. -/
def Alike (hash : K → BitVec c.w) (t₁ t₂ : Trie c K V) : Prop := ∀ k, t₁.find hash k = t₂.find hash k

theorem Alike.perm {hash : K → BitVec c.w} {t₁ t₂ : Trie c K V} (h₁ : Reach c hash t₁) (h₂ : Reach c hash t₂)
    (al : Alike hash t₁ t₂) : t₁.visit.Perm t₂.visit := by
  refine perm_of_find h₁.laws h₁.distinct h₂.distinct fun k => ?_
  have := al k
  rw [h₁.find, h₂.find] at this
  injection this

theorem Alike.of_perm {hash : K → BitVec c.w} {t₁ t₂ : Trie c K V} (h₁ : Reach c hash t₁) (h₂ : Reach c hash t₂)
    (p : t₁.visit.Perm t₂.visit) : Alike hash t₁ t₂ := by
  intro k
  rw [h₁.find, h₂.find, find?_perm (h₁.query k) h₁.distinct h₂.distinct p]

omit [BEq K] in
theorem collisions_perm {hash : K → BitVec c.w} {as as' : List (K × V)} (p : as.Perm as') (h : BitVec c.w) :
    collisions hash as h = collisions hash as' h := p.countP_eq _

omit [BEq K] [BEq L] in
theorem NoStall.perm {as as' : List (K × V)} {bs bs' : List (L × W)} (pa : as.Perm as') (pb : bs.Perm bs') :
    NoStall x as bs ↔ NoStall x as' bs' := by
  simp only [NoStall, collisions_perm pa, collisions_perm pb]

theorem cases_perm (laws : CrossLaws x) {as as' : List (K × V)} {bs bs' : List (L × W)} (hb : DistinctKeys bs)
    (hb' : DistinctKeys bs') (pa : as.Perm as') (pb : bs.Perm bs') :
    (jointCases (fun a b => x.eq a.1 b.1) as bs).Perm (jointCases (fun a b => x.eq a.1 b.1) as' bs') := by
  unfold jointCases
  refine List.Perm.append ?_ ?_
  · have : ∀ a : K × V, bs.find? (fun b => x.eq a.1 b.1) = bs'.find? (fun b => x.eq a.1 b.1) := by
      intro a
      have := find?_perm (laws.query a.1) hb hb' pb
      simpa only [laws.sym] using this
    simp only [this]
    exact pa.map _
  · have : ∀ b : L × W, (as.any fun a => x.eq a.1 b.1) = as'.any fun a => x.eq a.1 b.1 := by
      intro b
      rw [Bool.eq_iff_iff, List.any_eq_true, List.any_eq_true]
      simp only [pa.mem_iff]
    simp only [this]
    exact (pb.filter _).map _

end HT
