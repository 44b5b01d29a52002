import Verif.SetChaosSpec
import Verif.SetReach
import Verif.KeyCallsTrie
import Verif.MatchSpec
/-! # Chaotic sets are chaotic maps -/
namespace HT

variable {K L S R : Type} {c : Cfg}

/-- What comes out, changed by `g`. -/
def Outcome.image {Q α β : Type} (g : α → β) : Outcome Q α → Outcome Q β
  | .ret a => .ret (g a)
  | .panic p => .panic p
  | .diverge => .diverge
  | .closure q => .closure q

theorem Tree.Path.map_cases {Q : Type} {A : Q → Type} {α β : Type} {x : Tree Q A α} {g : α → β}
    {calls : List (Reply Q A)} {o : Outcome Q β} (h : (x.bind fun a => .ret (g a)).Path calls o) :
    ∃ o', x.Path calls o' ∧ o = o'.image g := by
  rcases Tree.Path.bind_cases h with ⟨a, c1, c2, h1, h2, h3⟩ | ⟨p, h1, h2⟩ | ⟨h1, h2⟩ | ⟨q, h1, h2⟩
  · cases h2
    rw [List.append_nil] at h3
    subst h3
    exact ⟨_, h1, rfl⟩
  · exact ⟨_, h2, h1⟩
  · exact ⟨_, h2, h1⟩
  · exact ⟨_, h2, h1⟩

/-- The answer of `HashTrieSet::insert` from that of the map. -/
def insertAnswer : Except (K × Unit) (Trie c K Unit × (K × Unit) × Option (K × Unit)) →
    Except K (HSet c K × K × Option K)
  | .ok (set, ptr, prev) => .ok (⟨set⟩, ptr.1, prev.map Prod.fst)
  | .error e => .error e.1

theorem HSet.insertK_eq (s : HSet c K) (k : K) (replace : Bool) :
    s.insertK k replace = (s.set.insertK k () replace).bind fun r => .ret (insertAnswer r) := by
  show (s.set.insertK k () replace).bind _ = _
  congr 1
  funext r
  rcases r with e | ⟨t, p, q⟩ <;> rfl

theorem HSet.findK_eq (s : HSet c K) : s.findK = s.set.findK.bind fun r => .ret (r.map Prod.fst) := rfl

theorem HSet.removeK_eq (s : HSet c K) :
    s.removeK = s.set.removeK.bind fun r => .ret (r.map fun p => (⟨p.1⟩, p.2.1)) := rfl

theorem ChaoticSet.map {K : Type} {s : HSet c K} (h : ChaoticSet c s) : Chaotic c s.set := by
  induction h with
  | new => exact .new
  | insert _ run ih =>
    rw [HSet.insertK_eq] at run
    obtain ⟨o, h1, h2⟩ := Tree.Path.map_cases run
    cases o with
    | ret a =>
      rcases a with e | ⟨t, p, q⟩
      · injection h2 with h2; cases h2
      · injection h2 with h2; injection h2 with h2; cases h2; exact .insert ih h1
    | _ => cases h2
  | remove _ run ih =>
    rw [HSet.removeK_eq] at run
    obtain ⟨o, h1, h2⟩ := Tree.Path.map_cases run
    cases o with
    | ret a =>
      rcases a with _ | ⟨t, p⟩
      · injection h2 with h2; cases h2
      · injection h2 with h2; cases h2; exact .remove ih h1
    | _ => cases h2
  | transform _ hr ih => exact .transform ih (HSet.wrap_ok.1 hr)
  | transmute _ hr ih => exact .transmute ih (HSet.wrap_ok.1 hr)
  | twm _ _ hr ih ih' => exact .twm ih ih' (HSet.wrap_ok.1 hr)
  | mwt _ _ hr ih ih' => exact .mwt ih ih' (HSet.wrap_ok.1 hr)
  | mwm _ _ hr ih ih' => exact .mwm ih ih' (HSet.wrap_ok.1 hr)
  | twt _ _ hr ih ih' => exact .twt ih ih' (HSet.wrap_ok.1 hr)

/-! ### Cases about entries and cases about keys -/

theorem Pairing.keys {said : K → L → Prop} {as : List (K × Unit)} {bs : List (L × Unit)}
    {cs : List (Case (K × Unit) (L × Unit))} (h : Pairing (fun a b => said a.1 b.1) as bs cs) :
    Pairing said (as.map Prod.fst) (bs.map Prod.fst) (cs.map Case.keys) where
  lefts := by
    refine List.Perm.trans (List.Perm.of_eq ?_) (h.lefts.map Prod.fst)
    rw [List.filterMap_map, List.map_filterMap]
    exact List.filterMap_congr fun p _ => by cases p <;> rfl
  rights := by
    refine List.Perm.trans (List.Perm.of_eq ?_) (h.rights.map Prod.fst)
    rw [List.filterMap_map, List.map_filterMap]
    exact List.filterMap_congr fun p _ => by cases p <;> rfl
  said a b hm := by
    obtain ⟨p, hp, e⟩ := List.mem_map.1 hm
    cases p with
    | left a => cases e
    | right b => cases e
    | both a b => cases e; exact h.said _ _ hp

theorem SetTransformResult.entry_key (y : SetTransformResult R) (a : K × Unit) :
    ((y.toMap : MapTransformResult Unit R).entry a).map Prod.fst = if y.keep then some a.1 else none := by
  cases y <;> rfl

theorem SetTransmuteResult.entry_key (y : SetTransmuteResult S R) : y.toMap.entry.map Prod.fst = y.key? := by
  cases y <;> rfl

end HT
