import Verif.NatJoint
import Verif.ParLemmas
/-! # Naturality of the operations on tries, and strategies, as equations between outcomes -/
namespace HT

variable {K V L W S X R R' : Type} {c : Cfg}
variable {reduce : R → R → R} {e : R} {reduce' : R' → R' → R'} {e' : R'} {g : R → R'}

/-- The map part of an outcome: the same panic or divergence, or the first component. -/
def Res.map1 {α β : Type} (r : Res (α × β)) : Res α := r.mapOk Prod.fst

theorem Res.map1_mapOk {α β γ : Type} (g : β → γ) (r : Res (α × β)) : (r.mapOk (Prod.map id g)).map1 = r.map1 := by
  cases r <;> rfl

section
variable (h : Hom reduce e reduce' e' g)
include h

theorem Trie.transform_nat (op : MapTransform R (K → V → MapTransformResult V R)) (par : Par) (t : Trie c K V) :
    t.transform reduce' e' (op.mapR g) par = (t.transform reduce e op par).mapOk (Prod.map id g) := by
  simp only [Trie.transform, Node.transform_nat h]
  cases t.root.transform reduce e op par with
  | ok r => cases r <;> rfl
  | _ => rfl

theorem Trie.transmute_nat (op : MapTransmute R (K → V → MapTransmuteResult S X R)) (t : Trie c K V) :
    t.transmute reduce' e' (op.mapR g) = (t.transmute reduce e op).mapOk (Prod.map id g) := by
  simp only [Trie.transmute, Node.transmute_nat h]
  cases t.root.transmute reduce e op with
  | ok r => cases r <;> rfl
  | _ => rfl

theorem Trie.twm_nat [BEq K] [BEq L] (x : Cross c K L) (ops : TwmOps K V L W R) (par : Par) (t : Trie c K V)
    (u : Trie c L W) : Trie.twm x reduce' e' (ops.mapR g) par t u =
      (Trie.twm x reduce e ops par t u).mapOk (Prod.map id g) := by
  simp only [Trie.twm, Node.twm_nat h]
  cases t.root.twm x reduce e ops par u.root 0 with
  | ok r => cases r <;> rfl
  | _ => rfl

theorem Trie.mwt_nat [BEq K] [BEq L] (x : Cross c K L) (ops : MwtOps K V L W R) (par : Par) (t : Trie c K V)
    (u : Trie c L W) : Trie.mwt x reduce' e' (ops.mapR g) par t u =
      (Trie.mwt x reduce e ops par t u).mapOk (Prod.map id g) := by
  simp only [Trie.mwt, Node.mwt_nat h]
  cases t.root.mwt x reduce e ops par u.root 0 with
  | ok r => cases r <;> rfl
  | _ => rfl

theorem Trie.mwm_nat [BEq K] [BEq L] (x : Cross c K L) (ops : MwmOps K V L W S X R) (t : Trie c K V)
    (u : Trie c L W) : Trie.mwm x reduce' e' (ops.mapR g) t u =
      (Trie.mwm x reduce e ops t u).mapOk (Prod.map id g) := by
  simp only [Trie.mwm, Node.mwm_nat h]
  cases t.root.mwm x reduce e ops u.root 0 with
  | ok r => cases r <;> rfl
  | _ => rfl

theorem Trie.twt_nat [BEq K] (hash : K → BitVec c.w) (ops : TwtOps K V R) (par : Par) (t u : Trie c K V) :
    Trie.twt reduce' e' hash (ops.mapR g) par t u =
      (Trie.twt reduce e hash ops par t u).mapOk (Prod.map id g) := by
  simp only [Trie.twt, Node.twt_nat h]
  cases t.root.twt reduce e hash ops par u.root 0 with
  | ok r => cases r <;> rfl
  | _ => rfl

end

/-- The trivial monoid. -/
theorem unitMon : Mon (R := Unit) (fun _ _ => ()) () := ⟨fun _ _ _ => rfl, fun _ => rfl, fun _ => rfl⟩

theorem eraseHom (reduce : R → R → R) (e : R) : Hom reduce e (fun _ _ => ()) () (fun _ => ()) :=
  ⟨fun _ _ => rfl, rfl⟩

section
variable (reduce e)

theorem Trie.transform_erase (op : MapTransform R (K → V → MapTransformResult V R)) (par : Par) (t : Trie c K V) :
    (t.transform reduce e op par).map1 =
      (t.transform (fun _ _ => ()) () (op.mapR fun _ => ()) .sequential).map1 := by
  rw [← Res.map1_mapOk (fun _ => ()), ← Trie.transform_nat (eraseHom reduce e) op par]
  simp only [Trie.transform, Node.transform_par unitMon _ par]

theorem Trie.transmute_erase (op : MapTransmute R (K → V → MapTransmuteResult S X R)) (t : Trie c K V) :
    (t.transmute reduce e op).map1 = (t.transmute (fun _ _ => ()) () (op.mapR fun _ => ())).map1 := by
  rw [← Res.map1_mapOk (fun _ => ()), ← Trie.transmute_nat (eraseHom reduce e) op]

theorem Trie.twm_erase [BEq K] [BEq L] (x : Cross c K L) (ops : TwmOps K V L W R) (par : Par) (t : Trie c K V)
    (u : Trie c L W) : (Trie.twm x reduce e ops par t u).map1 =
      (Trie.twm x (fun _ _ => ()) () (ops.mapR fun _ => ()) .sequential t u).map1 := by
  rw [← Res.map1_mapOk (fun _ => ()), ← Trie.twm_nat (eraseHom reduce e) x ops par]
  simp only [Trie.twm, Node.twm_par x unitMon _ par]

theorem Trie.mwt_erase [BEq K] [BEq L] (x : Cross c K L) (ops : MwtOps K V L W R) (par : Par) (t : Trie c K V)
    (u : Trie c L W) : (Trie.mwt x reduce e ops par t u).map1 =
      (Trie.mwt x (fun _ _ => ()) () (ops.mapR fun _ => ()) .sequential t u).map1 := by
  rw [← Res.map1_mapOk (fun _ => ()), ← Trie.mwt_nat (eraseHom reduce e) x ops par]
  simp only [Trie.mwt, Node.mwt_par x unitMon _ par]

theorem Trie.mwm_erase [BEq K] [BEq L] (x : Cross c K L) (ops : MwmOps K V L W S X R) (t : Trie c K V)
    (u : Trie c L W) : (Trie.mwm x reduce e ops t u).map1 =
      (Trie.mwm x (fun _ _ => ()) () (ops.mapR fun _ => ()) t u).map1 := by
  rw [← Res.map1_mapOk (fun _ => ()), ← Trie.mwm_nat (eraseHom reduce e) x ops]

theorem Trie.twt_erase [BEq K] (hash : K → BitVec c.w) (ops : TwtOps K V R) (par : Par) (t u : Trie c K V) :
    (Trie.twt reduce e hash ops par t u).map1 =
      (Trie.twt (fun _ _ => ()) () hash (ops.mapR fun _ => ()) .sequential t u).map1 := by
  rw [← Res.map1_mapOk (fun _ => ()), ← Trie.twt_nat (eraseHom reduce e) hash ops par]
  simp only [Trie.twt, Node.twt_par hash unitMon _ par]

end
end HT
