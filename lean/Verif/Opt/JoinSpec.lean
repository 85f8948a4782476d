import Verif.Opt.JoinPlan

/-! # Conditions on plans for the join reordering theorems -/

namespace Verif.Opt.Spec

variable {α : Type}

/-- A valid plan: rows are as wide as the schema says, and operators that the rule does not know keep that and map
the same bag of input rows to the same bag of output rows. -/
def Valid : Plan α → Prop
  | .scan w rs => ∀ r ∈ rs, r.length = w
  | .unary _ w f p => Valid p ∧ (∀ a b, a.Perm b → (f a).Perm (f b)) ∧
      ∀ a, (∀ r ∈ a, r.length = p.width) → ∀ r ∈ f a, r.length = w
  | .binary w f l r => Valid l ∧ Valid r ∧ (∀ a b c d, a.Perm b → c.Perm d → (f a c).Perm (f b d)) ∧
      ∀ a b, (∀ x ∈ a, x.length = l.width) → (∀ x ∈ b, x.length = r.width) → ∀ x ∈ f a b, x.length = w
  | .proj _ p => Valid p
  | .hashJoin l r _ _ _ _ => Valid l ∧ Valid r
  | .loopJoin l r _ _ => Valid l ∧ Valid r
  | .cross l r => Valid l ∧ Valid r

/-- The condition is a conjunction of things none of which is a plain equality of two columns. -/
def NoEquality {C : Type} : Expr α C → Prop
  | .and l r => NoEquality l ∧ NoEquality r
  | .eq _ _ => False
  | .other _ _ => True

/-- No join has null-safe keys and, beside them, a plain equality of two columns. -/
def NoClash : Plan α → Prop
  | .scan _ _ => True
  | .unary _ _ _ p => NoClash p
  | .binary _ _ l r => NoClash l ∧ NoClash r
  | .proj _ p => NoClash p
  | .hashJoin l r _ f _ ne => NoClash l ∧ NoClash r ∧ (ne = true → ∀ x, f = some x → NoEquality x.expr)
  | .loopJoin l r _ _ => NoClash l ∧ NoClash r
  | .cross l r => NoClash l ∧ NoClash r

end Verif.Opt.Spec
