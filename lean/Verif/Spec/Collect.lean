import Verif.Spec.Promotions
/-
Specification of name lookup and of the order of declarations.
-/
namespace Csdl

/-- `Denotes m key p`: in model `m`, `key` is the promoted name `p` of some variable, or the full name of a variable whose
promoted name is `p`. -/
inductive Denotes (m : Model) : Name → Name → Prop
  | promoted {path k v p} : PromotedAs m path k v p → Denotes m p p
  | full {path k v p} : PromotedAs m path k v p → Denotes m (fullName path v.name) p

mutual
/-- The declarations `sel` of all models of the hierarchy with the path of the declaring model, submodels before their
parent. -/
def issuedPost {α : Type} (sel : Local → List α) : Model → List (List Name × α)
  | .mk l subs => issuedPostSubs sel subs ++ (sel l).map fun x => ([], x)
def issuedPostSubs {α : Type} (sel : Local → List α) : Subs → List (List Name × α)
  | .nil => []
  | .cons n _ m rest => (issuedPost sel m).map (fun px => (n :: px.1, px.2)) ++ issuedPostSubs sel rest
end

mutual
/-- The declarations `sel` of all models of the hierarchy with the declaring model and its path, each
model before its submodels. -/
def issuedPre {α : Type} (sel : Local → List α) : Model → List (List Name × Model × α)
  | .mk l subs => (sel l).map (fun x => ([], .mk l subs, x)) ++ issuedPreSubs sel subs
def issuedPreSubs {α : Type} (sel : Local → List α) : Subs → List (List Name × Model × α)
  | .nil => []
  | .cons n _ m rest => (issuedPre sel m).map (fun px => (n :: px.1, px.2)) ++ issuedPreSubs sel rest
end

end Csdl
