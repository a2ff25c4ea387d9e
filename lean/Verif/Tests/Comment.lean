import Verif.Proofs.CommentFormat

/-!
# The unit tests of `comment.rs`, run on the model

These are tests of the model against the code (/repo/src/comment.rs:218-375), not proofs of properties.
-/

namespace Verif.Tests
open Verif Comment

private abbrev parse (s : String) : Comment := fromOptComment (some s.toList)
/-- `CommentBuilder::with_line` (/repo/src/comment.rs:183-187), which is compiled for tests only. -/
private def line (s : String) (c : Comment) : Comment := { c with lines := c.lines ++ [s.toList] }
private abbrev tag (s : String) (c : Comment) : Comment := c.withTag s.toList
private abbrev value (k v : String) (c : Comment) : Comment := c.withValueTag k.toList v.toList

set_option maxRecDepth 100000

example : parse "" = Comment.empty := by decide +kernel
example : parse "comment text" = (Comment.empty |> line "comment text") := by decide +kernel
example : parse "start text\nkey: value\nend text" =
    (Comment.empty |> line "start text" |> value "key" "value" |> line "end text") := by decide +kernel
example : parse "start text :TAG1:TAG2: end text\n" =
    (Comment.empty |> line "start text" |> tag "TAG1" |> tag "TAG2" |> line "end text") := by decide +kernel
example : parse "start text :TAG1:TAG2: end : text : with : colons\n" =
    (Comment.empty |> line "start text" |> tag "TAG1" |> tag "TAG2" |> line "end : text : with : colons") := by
  decide +kernel
example : parse "comment\n:flag: ignored-key: value\nkey: value" =
    (Comment.empty |> line "comment" |> tag "flag" |> line "ignored-key: value" |> value "key" "value") := by decide +kernel
example : parse "comment\nkey-without-value:" =
    (Comment.empty |> line "comment" |> value "key-without-value" "") := by decide +kernel

private abbrev format (c : Comment) (s : String) : Prop := intoOptComment HashOrder.rev c = some s.toList

example : intoOptComment HashOrder.rev Comment.empty = none := by rw [intoOptComment_eq]; decide +kernel
example : format (Comment.empty |> line "first line" |> line "second line") "first line\nsecond line" := by
  unfold format; rw [intoOptComment_eq]; decide +kernel
example : format (Comment.empty |> line "first line" |> line "second line" |> value "name" "value")
    "first line\nsecond line\nname: value" := by
  unfold format; rw [intoOptComment_eq]; decide +kernel
example : format (Comment.empty |> line "text" |> tag "tag1" |> tag "tag2" |> line "more text" |> tag "tag3" |> tag "tag4")
    ":tag1:tag2:tag3:tag4: text\nmore text" := by
  unfold format; rw [intoOptComment_eq]; decide +kernel
example : format (Comment.empty |> line "text" |> tag "tag1" |> tag "tag2" |> value "name1" "value1" |> line "more text" |>
      tag "tag3" |> value "name2" "value2")
    ":tag1:tag2:tag3: text\nmore text\nname1: value1\nname2: value2" := by
  unfold format; rw [intoOptComment_eq]; decide +kernel
example : format (Comment.empty |> tag "a_tag" |> tag "z_tag" |> value "name1" "value1" |> tag "really_long_tag_name")
    ":a_tag:z_tag:\n:really_long_tag_name:\nname1: value1" := by
  unfold format; rw [intoOptComment_eq]; decide +kernel

example : (Comment.empty |> line "orig text" |> value "orig_key1" "orig_value1" |> value "orig_key2" "orig_value2" |>
      tag "orig_tag").mergeFrom
    (Comment.empty |> line "new text" |> value "new_key1" "new_value1" |> value "orig_key2" "new_value2" |> tag "new_tag") =
    (Comment.empty |> line "orig text" |> line "new text" |> value "new_key1" "new_value1" |> value "orig_key1" "orig_value1" |>
      value "orig_key2" "new_value2" |> tag "new_tag" |> tag "orig_tag") := by decide +kernel

end Verif.Tests
