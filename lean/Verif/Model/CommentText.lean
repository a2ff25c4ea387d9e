import Verif.Base.Rx
import Verif.Base.Hash
import Verif.Model.Comment

/-!
# Parsing and formatting comments
-/

namespace Verif
namespace Comment
open Rx

/-- `MAX_INLINE_TAG_LEN` (/repo/src/comment.rs:7). -/
def maxInlineTagLen : Nat := 12

/-- The class `[^: ]` (/repo/src/comment.rs:43,46). -/
def notColonSpace (c : Char) : Bool := c != ':' && c != ' '

/-- `VALUE_TAG_RX`: `^[ ]*([^: ]+):(?:[ ]+(.+))?$` (/repo/src/comment.rs:43). -/
def valueTagRx : Rx :=
  cat [bol, star (lit ' '), grp 1 (plus (chr notColonSpace)), lit ':',
    opt (seq (plus (lit ' ')) (grp 2 (plus dot))), eol]

/-- `FLAG_TAG_RX`: `:((?:[^: ]+:)+)` (/repo/src/comment.rs:46). -/
def flagTagRx : Rx := seq (lit ':') (grp 1 (plus (seq (plus (chr notColonSpace)) (lit ':'))))

/-- Push text found outside flag groups (/repo/src/comment.rs:74-80,88-93). -/
def pushText (c : Comment) (text : Str) : Comment :=
  let text := text.trim
  if text.isEmpty then c else { c with lines := c.lines ++ [text] }

/-- The loop over `FLAG_TAG_RX.captures_iter(line)` and what follows it (/repo/src/comment.rs:67-93). The slices
`line[a..b]` are taken by character position instead of byte position. -/
def flagLoop (line : Str) : Comment → Nat → List Found → Comment
  | c, leadingStart, [] =>
    if leadingStart < line.length then pushText c (line.drop leadingStart) else c
  | c, leadingStart, m :: ms =>
    let c := if leadingStart < m.start then pushText c ((line.drop leadingStart).take (m.start - leadingStart)) else c
    let flags := (Str.trimEndChar ':' ((m.get 1).getD [])).splitOn ':'
    flagLoop line { c with tags := flags.foldl (fun ts f => ts.insert f) c.tags } m.stop.pos ms

/-- The body of the loop over the lines (/repo/src/comment.rs:57-94). The `expect`s on groups 0 and 1 cannot fail: both
take part in every match. -/
def parseLine (c : Comment) (line : Str) : Comment :=
  match captures valueTagRx line with
  | some m => { c with valueTags := c.valueTags.insert ((m.get 1).getD []) ((m.get 2).getD []) }
  | none => flagLoop line c 0 (capturesIter flagTagRx line)

/-- `Comment::from_opt_comment` (/repo/src/comment.rs:41-97). `from_opt_string` (/repo/src/comment.rs:36-38) is the same
function. -/
def fromOptComment : Option Str → Comment
  | none => Comment.empty
  | some s => (s.splitOn '\n').foldl parseLine Comment.empty

/-- Order used by `Vec::sort` on strings (/repo/src/comment.rs:110,115). -/
def strLe (a b : Str) : Bool := (compare a b).isLE

/-- Order used by `Vec::sort` on pairs of strings (/repo/src/comment.rs:130). -/
def pairLe (a b : Str × Str) : Bool := ((compare a.1 b.1).then (compare a.2 b.2)).isLE

/-- The lines for tags (/repo/src/comment.rs:103-117). -/
def tagLines (h : HashOrder) (tags : TagSet) : List Str :=
  if tags.isEmpty then []
  else
    let tags := h.iter .fmtTags tags.toList
    let shortTags := tags.filter (fun t => t.byteLen ≤ maxInlineTagLen)
    let longTags := tags.filter (fun t => ¬ t.byteLen ≤ maxInlineTagLen)
    (if shortTags.isEmpty then [] else [[':'] ++ Str.join [':'] (sortBy strLe shortTags) ++ [':']]) ++
    (sortBy strLe longTags).map (fun t => [':'] ++ t ++ [':'])

/-- The loop over the text lines (/repo/src/comment.rs:118-127), starting with line number `i`. `trim_string`
(/repo/src/comment.rs:157-163) is `trim`. -/
def textLoop (out : List Str) : Nat → List Str → List Str
  | _, [] => out
  | i, line :: ls =>
    match decide (i = 0), out with
    | true, o :: os => textLoop ((o ++ [' '] ++ line.trim) :: os) (i + 1) ls
    | _, _ => textLoop (out ++ [line.trim]) (i + 1) ls

/-- The lines for value tags (/repo/src/comment.rs:129-133). -/
def valueLines (h : HashOrder) (vt : StrMap) : List Str :=
  (sortBy pairLe (h.iter .fmtValueTags vt.toList)).map (fun e => e.1.trim ++ [':', ' '] ++ e.2.trim)

/-- `Comment::into_opt_comment` (/repo/src/comment.rs:100-140). -/
def intoOptComment (h : HashOrder) (c : Comment) : Option Str :=
  let out := textLoop (tagLines h c.tags) 0 c.lines ++ valueLines h c.valueTags
  if out.isEmpty then none else some (Str.join ['\n'] out)

end Comment
end Verif
