import Verif.Model.Tags
/-
Objects with identity: tags, comments and lists of lines in memory, as in /repo/specfile/tags.py. The other models
treat these objects as values; here several containers may refer to the same object.

Simplified: the list `data` of a container is part of the container, because every constructor and every copy makes a
new one (tags.py:91 and 338, `UserList.__copy__`). The context of a tag is left out.
-/
namespace Specfile.Heap
open Py

/-- `Comments`: references to comments and to the list of preceding lines, tags.py:68-94 -/
structure CommentsObj where
  data : List Nat
  preceding : Nat

/-- `Tag`, tags.py:197-244 -/
structure TagObj where
  name : Str
  value : Str
  sep : Str
  comments : Nat
  valid : Bool
  pfx : Str
  sfx : Str

/-- `Tags`: references to tags and to the list of remaining lines, tags.py:306-339 -/
structure TagsObj where
  data : List Nat
  remainder : Nat

/-- The objects by kind and address. Addresses from `next` on are not used.
See tags.py:42-94, 197-244 and 306-339. -/
structure Heap where
  lines : Nat → List Str
  comment : Nat → Comment
  comments : Nat → CommentsObj
  tag : Nat → TagObj
  tags : Nat → TagsObj
  next : Nat

/-- assignment, for example tags.py:143 -/
def upd {α : Type} (f : Nat → α) (a : Nat) (v : α) : Nat → α := fun x => if x = a then v else f x

/-! ### what objects contain -/

/-- `Comments` as a value: tags.py:77-94 -/
def readComments (h : Heap) (c : Nat) : Comments :=
  ⟨(h.comments c).data.map h.comment, h.lines (h.comments c).preceding⟩

/-- `Tag` as a value: tags.py:207-244 -/
def readTag (h : Heap) (t : Nat) : Tag where
  name := (h.tag t).name
  value := (h.tag t).value
  sep := (h.tag t).sep
  comments := readComments h (h.tag t).comments
  valid := (h.tag t).valid
  pfx := (h.tag t).pfx
  sfx := (h.tag t).sfx

/-- `Tags` as a value: tags.py:326-339 -/
def readTags (h : Heap) (r : Nat) : Tags :=
  ⟨(h.tags r).data.map (readTag h), h.lines (h.tags r).remainder⟩

/-! ### construction -/

/-- `[Comment(text, prefix), …]`: the comments get the addresses from `next` on;
tags.py:51-53 and 190 -/
def newTexts (h : Heap) (cs : List Comment) : Heap × List Nat :=
  ({ h with comment := fun a => if h.next ≤ a then (cs[a - h.next]?).getD (h.comment a) else h.comment a
            next := h.next + cs.length }, (List.range cs.length).map (h.next + ·))

/-- `Comments(data, preceding_lines)`, tags.py:77-94; the list of lines is copied -/
def newComments (h : Heap) (data : List Nat) (preceding : List Str) : Heap × Nat :=
  ({ h with lines := upd h.lines h.next preceding, comments := upd h.comments h.next ⟨data, h.next⟩
            next := h.next + 1 }, h.next)

/-- `copy.copy(comments)`, tags.py:147-148: the list of comments is copied, the list of preceding lines is shared -/
def copyComments (h : Heap) (c : Nat) : Heap × Nat :=
  ({ h with comments := upd h.comments h.next (h.comments c), next := h.next + 1 }, h.next)

/-- `Tag(…, comments, …)`, tags.py:207-244; the name is taken to be valid -/
def newTag (h : Heap) (t : TagObj) : Heap × Nat :=
  match copyComments h t.comments with
  | (h', c) => ({ h' with tag := upd h'.tag h'.next { t with comments := c }, next := h'.next + 1 }, h'.next)

/-- `Tag(…, Comments([Comment(…), …], […]), …)`: nothing is shared with other objects;
tags.py:51-53, 77-94 and 207-244 -/
def buildTag (h : Heap) (t : Tag) : Heap × Nat :=
  match newTexts h t.comments.data with
  | (h, data) =>
    match newComments h data t.comments.preceding with
    | (h, c) => newTag h ⟨t.name, t.value, t.sep, c, t.valid, t.pfx, t.sfx⟩

/-- `[Tag(…), …]`; tags.py:529-540 -/
def buildAll (h : Heap) : List Tag → Heap × List Nat
  | [] => (h, [])
  | t :: ts =>
    match buildTag h t with
    | (h, a) =>
      match buildAll h ts with
      | (h, as) => (h, a :: as)

/-- `Tags(data, remainder)`, tags.py:326-339 -/
def newTags (h : Heap) (data : List Nat) (remainder : List Str) : Heap × Nat :=
  ({ h with lines := upd h.lines h.next remainder, tags := upd h.tags h.next ⟨data, h.next⟩, next := h.next + 1 }, h.next)

/-- what `Tags.parse` makes, tags.py:531-544: all objects are new -/
def build (h : Heap) (m : Tags) : Heap × Nat :=
  match buildAll h m.data with
  | (h, data) => newTags h data m.remainder

/-- `tags.copy()`, tags.py:426-427: the remaining lines and the tags are shared -/
def copyTags (h : Heap) (r : Nat) : Heap × Nat :=
  ({ h with tags := upd h.tags h.next (h.tags r), next := h.next + 1 }, h.next)

/-- `tags[:]`, tags.py:353-355: the tags are shared -/
def sliceAll (h : Heap) (r : Nat) : Heap × Nat := newTags h (h.tags r).data (h.lines (h.tags r).remainder)

/-- `copy.deepcopy`: each object is copied once, references go to the copies; tags.py:265-273. Simplified: the address
of a copy is the address of the original plus `next`, and objects that are not reachable are copied as well. -/
def deepcopy (h : Heap) (r : Nat) : Heap × Nat :=
  ({ lines := fun a => if h.next ≤ a then h.lines (a - h.next) else h.lines a
     comment := fun a => if h.next ≤ a then h.comment (a - h.next) else h.comment a
     comments := fun a => if h.next ≤ a then
         ⟨(h.comments (a - h.next)).data.map (h.next + ·), h.next + (h.comments (a - h.next)).preceding⟩
       else h.comments a
     tag := fun a => if h.next ≤ a then
         { h.tag (a - h.next) with comments := h.next + (h.tag (a - h.next)).comments }
       else h.tag a
     tags := fun a => if h.next ≤ a then
         ⟨(h.tags (a - h.next)).data.map (h.next + ·), h.next + (h.tags (a - h.next)).remainder⟩
       else h.tags a
     next := h.next + h.next }, h.next + r)

/-! ### operations -/

/-- `lines[:] = …` and the like; tags.py:477 -/
def setLines (h : Heap) (a : Nat) (v : List Str) : Heap := { h with lines := upd h.lines a v }

/-- `tags.data = …` and the like, tags.py:338 and 467 -/
def withData (h : Heap) (r : Nat) (data : List Nat) : Heap :=
  { h with tags := upd h.tags r { h.tags r with data := data } }

/-- the list of lines before a tag, `tag.comments._preceding_lines`; tags.py:94 -/
def precedingOf (h : Heap) (t : Nat) : Nat := (h.comments (h.tag t).comments).preceding

/-- `delete` in `__delitem__`, tags.py:360-383 -/
def delItem (h : Heap) (r : Nat) (i : Int) : Heap × Option Err :=
  match pyIndex (h.tags r).data.length i with
  | none => (h, some .indexError)
  | some k =>
    match (h.tags r).data[k]? with
    | none => (h, some .indexError)
    | some t =>
      let preceding := h.lines (precedingOf h t)
      let data := (h.tags r).data.eraseIdx k
      let h' := withData h r data
      if i < data.length then
        match pyIndex data.length i with
        | none => (h', some .indexError)
        | some j =>
          match data[j]? with
          | none => (h', some .indexError)
          | some u =>
            (setLines h' (precedingOf h' u) (Tags.compress preceding (h'.lines (precedingOf h' u))), none)
      else (setLines h' (h.tags r).remainder (Tags.compress preceding (h'.lines (h.tags r).remainder)), none)

/-- the loop over the indices of a slice, tags.py:386-387 -/
def delAll (h : Heap) (r : Nat) : List Nat → Heap × Option Err
  | [] => (h, none)
  | i :: l =>
    match delItem h r i with
    | (h', some e) => (h', some e)
    | (h', none) => delAll h' r l

/-- `__delitem__` with a slice, tags.py:385-387 -/
def delSlice (h : Heap) (r : Nat) (start stop step : Option Int) : Heap × Option Err :=
  match sliceIndices (h.tags r).data.length start stop step with
  | .error e => (h, some e)
  | .ok l => delAll h r l.reverse

/-- moving the lines up to `%endif` before the new tag, tags.py:472-477 -/
def moveLines (h : Heap) (a item : Nat) : Heap :=
  let lines := h.lines a
  let h' := setLines h (precedingOf h item) ((Tags.splitEndif lines).1 ++ h.lines (precedingOf h item))
  setLines h' a ((h'.lines a).drop (Tags.splitEndif lines).1.length)

/-- `insert`, tags.py:463-477 -/
def insert (h : Heap) (r : Nat) (i : Int) (item : Nat) : Heap × Option Err :=
  let o := h.tags r
  if i < o.data.length then
    match pyIndex o.data.length i with
    | none => (h, some .indexError)
    | some k =>
      match o.data[k]? with
      | none => (h, some .indexError)
      | some u =>
        (moveLines (withData h r (o.data.take k ++ item :: o.data.drop k)) (precedingOf h u) item, none)
  else
    (moveLines (withData h r (o.data ++ [item])) o.remainder item, none)

/-- `tag.value = …`, tags.py:235 -/
def setValue (h : Heap) (t : Nat) (v : Str) : Heap := { h with tag := upd h.tag t { h.tag t with value := v } }

/-- `comments[j] = "…"`, tags.py:142-143 -/
def setText (h : Heap) (c : Nat) (j : Int) (v : Str) : Heap × Option Err :=
  match pyIndex (h.comments c).data.length j with
  | none => (h, some .indexError)
  | some k =>
    match (h.comments c).data[k]? with
    | none => (h, some .indexError)
    | some a => ({ h with comment := upd h.comment a { h.comment a with text := v } }, none)

/-- `comments.append("…")`, tags.py:150-153 -/
def appendText (h : Heap) (c : Nat) (v : Str) : Heap :=
  { h with comment := upd h.comment h.next (.ofText v)
           comments := upd h.comments c { h.comments c with data := (h.comments c).data ++ [h.next] }
           next := h.next + 1 }

/-- operations on a container, tags.py:142-153, 359-389 and 463-477 -/
inductive Op where
  /-- `del tags[i]` -/
  | del (i : Int)
  /-- `del tags[start:stop:step]` -/
  | delSlice (start stop step : Option Int)
  /-- `tags.insert(i, Tag(…))` with a new tag that has new comments -/
  | insert (i : Int) (t : Tag)
  /-- `tags[i].value = v` -/
  | setValue (i : Nat) (v : Str)
  /-- `tags[i].comments[j] = v` -/
  | setText (i : Nat) (j : Int) (v : Str)
  /-- `tags[i].comments.append(v)` -/
  | append (i : Nat) (v : Str)

/-- the operations on the heap, tags.py:142-153, 359-389 and 463-477 -/
def Op.run (h : Heap) (r : Nat) : Op → Heap × Option Err
  | .del i => delItem h r i
  | .delSlice start stop step => Heap.delSlice h r start stop step
  | .insert i t =>
    match buildTag h t with
    | (h', a) => Heap.insert h' r i a
  | .setValue i v =>
    match (h.tags r).data[i]? with
    | none => (h, some .indexError)
    | some t => (Heap.setValue h t v, none)
  | .setText i j v =>
    match (h.tags r).data[i]? with
    | none => (h, some .indexError)
    | some t => Heap.setText h (h.tag t).comments j v
  | .append i v =>
    match (h.tags r).data[i]? with
    | none => (h, some .indexError)
    | some t => (appendText h (h.tag t).comments v, none)

end Specfile.Heap
