import Verif.Spec.Tags
import Verif.Model.Sourcelist
/-
Vocabulary for statements about %sourcelist and %patchlist.
-/
namespace Specfile.Spec
open Py

/-- a line that is neither empty nor a comment -/
def IsEntry (l : Str) : Prop := l ≠ [] ∧ ¬ CommentLine l

/-- `ReadEntries above lines es r`: below the lines `above`, the lines (with their validity) consist of
the entries `es`, and the lines `r` at the end. -/
inductive ReadEntries : List Str → List (Str × Bool) → List SourcelistEntry → List Str → Prop
  | nil {above} : ReadEntries above [] [] above
  | skip {above l v ls es r} : ¬ IsEntry l → ReadEntries (above ++ [l]) ls es r →
      ReadEntries above ((l, v) :: ls) es r
  | entry {above l v c ls es r} : IsEntry l → CommentsOf above c → ReadEntries [] ls es r →
      ReadEntries above ((l, v) :: ls) (⟨l, c, v⟩ :: es) r

/-- an entry that is written the way it will be read -/
structure GoodEntry (e : SourcelistEntry) : Prop where
  location : IsEntry e.location
  oneLine : ∀ l ∈ e.comments.raw, '\n' ∉ l
  preceding : ∀ l ∈ e.comments.preceding, ¬ IsEntry l
  comments : CommentsOf e.comments.raw e.comments

/-- a list that is written the way it will be read -/
def GoodSourcelist (s : Sourcelist) : Prop :=
  (∀ e ∈ s.data, GoodEntry e) ∧ ∀ l ∈ s.remainder, ¬ IsEntry l

end Specfile.Spec
