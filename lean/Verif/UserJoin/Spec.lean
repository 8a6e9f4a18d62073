import Verif.UserJoin.Model
/-! # Specification: users with both parts -/
namespace Verif.UserJoin.Spec
open Verif.FileLabel (strcmp)

/-- A correct sort by name. -/
structure SortsBy {α : Type} (name : α → Bytes) (q : List α → List α) : Prop where
  perm : ∀ l, (q l).Perm l
  sorted : ∀ l, (q l).Pairwise (fun a b => strcmp (name a) (name b) ≤ 0)

/-- The user of a name has the first part of this name and the second part of this
name; what is missing is a user without roles, level and range, and the prefix
`user`. -/
inductive Joined (bs : List Base) (es : List Extra) : User → Prop
  | both (b : Base) (e : Extra) (hb : b ∈ bs) (he : e ∈ es) (h : b.name = e.name) : Joined bs es ⟨b.name, b, e⟩
  | base (b : Base) (hb : b ∈ bs) (h : ∀ e ∈ es, e.name ≠ b.name) : Joined bs es ⟨b.name, b, ⟨b.name, [117, 115, 101, 114]⟩⟩
  | extra (e : Extra) (he : e ∈ es) (h : ∀ b ∈ bs, b.name ≠ e.name) : Joined bs es ⟨e.name, ⟨e.name, [], none, none⟩, e⟩

end Verif.UserJoin.Spec
