import Verif.Proofs.Rx
import Verif.Model.CommentText
import Mathlib.Data.List.TakeWhile

/-!
# The comment parser in closed form
-/

namespace Verif
namespace Comment
open Rx

theorem take_takeWhile {α : Type} (p : α → Bool) (l : List α) : l.take (l.takeWhile p).length = l.takeWhile p := by
  have h := List.take_left (l₁ := l.takeWhile p) (l₂ := l.dropWhile p)
  rwa [List.takeWhile_append_dropWhile] at h

/-! ### Value tags -/

/-- What `[ ]+(.+)$` captures after the first space. -/
def spaceVal (t : Str) : Option Str :=
  if t = [] then none else if t.dropWhile (· == ' ') = [] then some [' '] else some (t.dropWhile (· == ' '))

/-- Key and value of a value tag line. -/
def valueTag? (line : Str) : Option (Str × Str) :=
  let l := line.dropWhile (· == ' ')
  if l.takeWhile notColonSpace = [] then none
  else
    match l.dropWhile notColonSpace with
    | ':' :: [] => some (l.takeWhile notColonSpace, [])
    | ':' :: ' ' :: t => (spaceVal t).map (fun v => (l.takeWhile notColonSpace, v))
    | _ => none

/-- `(.+)$` -/
def dotEnd : Rx := seq (grp 2 (plus dot)) eol

theorem run_dotEnd (pos : Nat) (rest : Str) (caps : List (Nat × Str)) (hn : '\n' ∉ rest) :
    run dotEnd ⟨pos, rest, caps⟩ = if rest = [] then [] else [⟨pos + rest.length, [], (2, rest) :: caps⟩] := by
  have htw : rest.takeWhile (· != '\n') = rest := by
    rw [List.takeWhile_eq_self_iff]
    intro c hc
    simp only [bne_iff_ne, ne_eq]
    rintro rfl; exact hn hc
  have hdw : rest.dropWhile (· != '\n') = [] := by
    rw [List.dropWhile_eq_nil_iff]
    intro c hc
    simp only [bne_iff_ne, ne_eq]
    rintro rfl; exact hn hc
  unfold dotEnd
  show (run (grp 2 (plus (chr (· != '\n')))) _).flatMap (run eol) = _
  rw [run_grp, plus_chr_max _ _ (by intro pos c cs caps _; rfl), htw, hdw]
  split
  · rfl
  · rw [run_eol, if_pos rfl]
    simp

theorem run_spaces_dotEnd (pos : Nat) (t : Str) (caps : List (Nat × Str)) (hn : '\n' ∉ t) :
    ((run (star (lit ' ')) ⟨pos, t, caps⟩).flatMap (run dotEnd)).head? =
      (spaceVal t).map (fun v => ⟨pos + t.length, [], (2, v) :: caps⟩) := by
  induction t generalizing pos with
  | nil => rfl
  | cons c cs ih =>
    have hn' : '\n' ∉ cs := fun h => hn (by simp [h])
    unfold lit at ih ⊢
    rw [star_chr_cons, List.flatMap_append, List.head?_append, List.flatMap_cons, List.flatMap_nil, List.append_nil,
      run_dotEnd _ _ _ hn]
    by_cases hc : (c == ' ') = true
    · rw [if_pos hc, ih _ hn']
      have he : c = ' ' := by simpa using hc
      subst he
      unfold spaceVal
      rw [List.dropWhile_cons, if_pos hc]
      by_cases h0 : cs = []
      · subst h0; rfl
      · simp only [h0, if_false, reduceCtorEq, List.length_cons]
        split <;> simp [Nat.add_assoc, Nat.add_comm 1]
    · rw [if_neg hc]
      unfold spaceVal
      rw [List.dropWhile_cons, if_neg hc]
      simp

theorem captures_valueTag (line : Str) (hn : '\n' ∉ line) :
    (captures valueTagRx line).map (fun m => ((m.get 1).getD [], (m.get 2).getD [])) = valueTag? line := by
  rw [captures_bol]
  rotate_left
  · intro s hs
    show (run bol s).flatMap _ = []
    rw [run_bol, if_neg hs]
  have e1 : run valueTagRx ⟨0, line, []⟩ =
      (run (star (lit ' ')) ⟨0, line, []⟩).flatMap (run (seq (grp 1 (plus (chr notColonSpace))) (seq (lit ':')
        (seq (opt (seq (plus (lit ' ')) (grp 2 (plus dot)))) eol)))) := by
    show (run bol _).flatMap _ = _
    rw [run_bol, if_pos rfl]; rfl
  rw [e1]
  unfold lit
  rw [star_chr_max]
  rotate_left
  · intro pos c cs caps hc
    show (run (grp 1 _) _).flatMap _ = []
    have he : c = ' ' := by simpa using hc
    subst he
    rfl
  show Option.map _ (Option.map _ (((run (grp 1 (plus (chr notColonSpace))) _).flatMap _).head?)) = _
  rw [run_grp, plus_chr_max]
  rotate_left
  · intro pos c cs caps hc
    show (run (chr (· == ':')) _).flatMap _ = []
    rw [run_chr_cons, if_neg]; · rfl
    intro h
    have : c = ':' := by simpa using h
    subst this
    exact absurd hc (by decide)
  unfold valueTag?
  simp only
  have hn2 : '\n' ∉ (line.dropWhile (· == ' ')).dropWhile notColonSpace := fun h =>
    hn ((List.dropWhile_sublist _).subset ((List.dropWhile_sublist _).subset h))
  generalize line.dropWhile (· == ' ') = l at hn2 ⊢
  by_cases hk : l.takeWhile notColonSpace = []
  · rw [if_pos hk, if_pos hk]; rfl
  rw [if_neg hk, if_neg hk]
  have htk : ∀ a : Nat, l.take (a + (l.takeWhile notColonSpace).length - a) = l.takeWhile notColonSpace := by
    intro a
    rw [Nat.add_sub_cancel_left]
    exact take_takeWhile _ l
  rw [htk]
  generalize l.takeWhile notColonSpace = k
  generalize l.dropWhile notColonSpace = q at hn2
  show Option.map _ (Option.map _ (((run (chr (· == ':')) _).flatMap _).head?)) = _
  match q, hn2 with
  | [], _ => rfl
  | c :: t, hn2 =>
    rw [run_chr_cons]
    by_cases hc : c = ':'
    rotate_left
    · rw [if_neg (by simpa using hc)]
      split
      · rename_i h; cases h; exact absurd rfl hc
      · rename_i h; cases h; exact absurd rfl hc
      · rfl
    subst hc
    rw [if_pos (by decide), List.flatMap_cons, List.flatMap_nil, List.append_nil]
    show Option.map _ (Option.map _ (((run (opt _) _).flatMap (run eol)).head?)) = _
    rw [run_opt, run_seq, run_eol]
    match t, hn2 with
    | [], _ => rfl
    | d :: t, hn2 =>
      have hnt : '\n' ∉ t := fun h => hn2 (by simp [h])
      rw [if_neg (by simp), List.append_nil]
      have e2 : ∀ s, (run (plus (chr (· == ' '))) s).flatMap (fun s' => (run (grp 2 (plus dot)) s').flatMap (run eol)) =
          (run (chr (· == ' ')) s).flatMap (fun s' => (run (star (lit ' ')) s').flatMap (run dotEnd)) := by
        intro s
        unfold plus
        rw [run_seq]; rfl
      rw [e2, run_chr_cons]
      by_cases hd : d = ' '
      · subst hd
        rw [if_pos (by decide), List.flatMap_cons, List.flatMap_nil, List.append_nil, run_spaces_dotEnd _ _ _ hnt]
        simp only [Option.map_map]
        congr 1
      · rw [if_neg (by simpa using hd)]
        split
        · rename_i h; cases h
        · rename_i h; cases h; exact absurd rfl hd
        · rfl

/-! ### Flag groups -/

/-- One `[^: ]+:`. -/
def piece? (cs : Str) : Option (Str × Str) :=
  if cs.takeWhile notColonSpace = [] then none
  else
    match cs.dropWhile notColonSpace with
    | ':' :: r => some (cs.takeWhile notColonSpace, r)
    | _ => none

theorem piece?_eq {cs w r : Str} (h : piece? cs = some (w, r)) :
    w ≠ [] ∧ (∀ c ∈ w, notColonSpace c = true) ∧ cs = w ++ ':' :: r := by
  unfold piece? at h
  split at h
  · cases h
  · rename_i hne
    split at h
    · rename_i r' hr
      cases h
      refine ⟨hne, fun c hc => List.mem_takeWhile_imp hc, ?_⟩
      rw [← hr, List.takeWhile_append_dropWhile]
    · cases h

theorem piece?_append {w r : Str} (hne : w ≠ []) (hw : ∀ c ∈ w, notColonSpace c = true) : piece? (w ++ ':' :: r) = some (w, r) := by
  have hc : notColonSpace ':' = false := by decide
  have h1 : (w ++ ':' :: r).takeWhile notColonSpace = w := by
    rw [List.takeWhile_append_of_pos hw, List.takeWhile_cons, hc]; simp
  have h2 : (w ++ ':' :: r).dropWhile notColonSpace = ':' :: r := by
    rw [List.dropWhile_append_of_pos hw, List.dropWhile_cons, hc]; simp
  unfold piece?
  rw [h1, h2, if_neg hne]
  rfl

/-- The longest `(?:[^: ]+:)*`: its flags and what is left. -/
def pieces (cs : Str) : List Str × Str :=
  match _h : piece? cs with
  | some (w, r) => (w :: (pieces r).1, (pieces r).2)
  | none => ([], cs)
termination_by cs.length
decreasing_by
  all_goals
    have := (piece?_eq _h).2.2
    rw [this]; simp; omega

theorem pieces_some {cs w r : Str} (h : piece? cs = some (w, r)) : pieces cs = (w :: (pieces r).1, (pieces r).2) := by
  rw [pieces]
  split
  · rename_i h'; rw [h] at h'; cases h'; rfl
  · rename_i h'; rw [h] at h'; cases h'

theorem pieces_none {cs : Str} (h : piece? cs = none) : pieces cs = ([], cs) := by
  rw [pieces]
  split
  · rename_i h'; rw [h] at h'; cases h'
  · rfl

/-- Flags as they are written in a group. -/
def group (ws : List Str) : Str := ws.flatMap (· ++ [':'])

/-- A non-empty word without colons and spaces. -/
def IsWord (w : Str) : Prop := w ≠ [] ∧ ∀ c ∈ w, notColonSpace c = true

theorem pieces_spec (cs : Str) : cs = group (pieces cs).1 ++ (pieces cs).2 ∧ ∀ w ∈ (pieces cs).1, IsWord w := by
  induction hn : cs.length using Nat.strong_induction_on generalizing cs with
  | _ n ih =>
    cases h : piece? cs with
    | none => rw [pieces_none h]; exact ⟨rfl, by simp⟩
    | some q =>
      obtain ⟨w, r⟩ := q
      obtain ⟨h1, h2, h3⟩ := piece?_eq h
      have hl : r.length < n := by rw [← hn, h3]; simp; omega
      obtain ⟨i1, i2⟩ := ih _ hl r rfl
      rw [pieces_some h]
      constructor
      · show cs = group (w :: _) ++ _
        unfold group at i1 ⊢
        rw [List.flatMap_cons, List.append_assoc, ← i1, List.append_assoc]
        exact h3
      · intro x hx
        rcases List.mem_cons.1 hx with rfl | hx
        · exact ⟨h1, h2⟩
        · exact i2 x hx

/-- `[^: ]+:` -/
def pieceRx : Rx := seq (plus (chr notColonSpace)) (lit ':')

theorem run_pieceRx (pos : Nat) (cs : Str) (caps : List (Nat × Str)) :
    run pieceRx ⟨pos, cs, caps⟩ = (piece? cs).toList.map (fun q => ⟨pos + q.1.length + 1, q.2, caps⟩) := by
  unfold pieceRx lit
  show (run (plus (chr notColonSpace)) _).flatMap (run (chr (· == ':'))) = _
  rw [plus_chr_max]
  rotate_left
  · intro pos c cs caps hc
    rw [run_chr_cons, if_neg]
    intro h
    have : c = ':' := by simpa using h
    subst this
    exact absurd hc (by decide)
  unfold piece?
  split
  · rfl
  · match cs.dropWhile notColonSpace with
    | [] => rfl
    | c :: t =>
      rw [run_chr_cons]
      by_cases hc : c = ':'
      · subst hc; rfl
      · rw [if_neg (by simpa using hc)]
        split
        · rename_i h; cases h; exact absurd rfl hc
        · rfl

theorem iter_pieceRx (n pos : Nat) (cs : Str) (caps : List (Nat × Str)) (hn : cs.length ≤ n) :
    (iter (run pieceRx) n ⟨pos, cs, caps⟩).head? = some ⟨pos + (group (pieces cs).1).length, (pieces cs).2, caps⟩ := by
  induction n generalizing pos cs with
  | zero =>
    have : cs = [] := List.length_eq_zero_iff.1 (by omega)
    subst this
    rw [pieces_none rfl]; rfl
  | succ n ih =>
    unfold iter
    rw [run_pieceRx]
    cases h : piece? cs with
    | none => rw [pieces_none h]; rfl
    | some q =>
      obtain ⟨w, r⟩ := q
      have h3 := (piece?_eq h).2.2
      have hl : r.length ≤ n := by
        have : cs.length = w.length + (r.length + 1) := by rw [h3]; simp
        omega
      rw [pieces_some h]
      simp only [Option.toList_some, List.map_cons, List.map_nil]
      rw [List.filter_cons_of_pos (by simp; omega), List.filter_nil, List.flatMap_cons, List.flatMap_nil, List.append_nil,
        List.head?_append, ih _ _ hl]
      simp only [Option.some_or]
      unfold group
      rw [List.flatMap_cons, List.length_append, List.length_append]
      congr 2
      simp only [List.length_cons, List.length_nil]; omega

theorem run_flagTagRx (pos : Nat) (cs : Str) :
    (run flagTagRx ⟨pos, ':' :: cs, []⟩).head? =
      if (pieces cs).1 = [] then none
      else some ⟨pos + 1 + (group (pieces cs).1).length, (pieces cs).2, [(1, group (pieces cs).1)]⟩ := by
  have e1 : run flagTagRx ⟨pos, ':' :: cs, []⟩ = run (grp 1 (plus pieceRx)) ⟨pos + 1, cs, []⟩ := by
    show (run (lit ':') _).flatMap _ = _
    rw [run_lit_cons, if_pos rfl]
    simp [pieceRx]
  have e2 : (run (plus pieceRx) ⟨pos + 1, cs, []⟩).head? =
      if (pieces cs).1 = [] then none
      else some ⟨pos + 1 + (group (pieces cs).1).length, (pieces cs).2, []⟩ := by
    show ((run pieceRx _).flatMap (run (star pieceRx))).head? = _
    rw [run_pieceRx]
    cases h : piece? cs with
    | none => rw [pieces_none h]; rfl
    | some q =>
      obtain ⟨w, r⟩ := q
      rw [pieces_some h]
      simp only [Option.toList_some, List.map_cons, List.map_nil, List.flatMap_cons, List.flatMap_nil, List.append_nil,
        reduceCtorEq, if_false]
      show (iter (run pieceRx) r.length _).head? = _
      rw [iter_pieceRx _ _ _ _ (le_refl _)]
      unfold group
      rw [List.flatMap_cons, List.length_append, List.length_append]
      congr 2
      simp only [List.length_cons, List.length_nil]; omega
  rw [e1, run, List.head?_map, e2]
  split
  · rfl
  · simp only [Option.map_some]
    congr 2
    have h := (pieces_spec cs).1
    have : cs.take (pos + 1 + (group (pieces cs).1).length - (pos + 1)) = group (pieces cs).1 := by
      rw [Nat.add_sub_cancel_left]
      generalize pieces cs = q at h
      rw [h, List.take_left]
    rw [this]

theorem run_flagTagRx_other (pos : Nat) (c : Char) (cs : Str) (hc : c ≠ ':') : run flagTagRx ⟨pos, c :: cs, []⟩ = [] := by
  show (run (lit ':') _).flatMap _ = _
  rw [run_lit_cons, if_neg hc]; rfl

/-- The first flag group: what is before it, its flags and what is after it. -/
def findFlags : Str → Option (Str × List Str × Str)
  | [] => none
  | c :: cs =>
    if c = ':' ∧ (pieces cs).1 ≠ [] then some ([], (pieces cs).1, (pieces cs).2)
    else (findFlags cs).map (fun q => (c :: q.1, q.2))

theorem findFlags_spec {t b r : Str} {ws : List Str} (h : findFlags t = some (b, ws, r)) :
    t = b ++ ':' :: (group ws ++ r) ∧ ws ≠ [] ∧ ∀ w ∈ ws, IsWord w := by
  induction t generalizing b with
  | nil => cases h
  | cons c cs ih =>
    unfold findFlags at h
    split at h
    · rename_i hc
      cases h
      obtain ⟨h1, h2⟩ := pieces_spec cs
      exact ⟨by rw [hc.1, List.nil_append, ← h1], hc.2, h2⟩
    · rw [Option.map_eq_some_iff] at h
      obtain ⟨⟨b', ws', r'⟩, hq, he⟩ := h
      cases he
      obtain ⟨i1, i2, i3⟩ := ih hq
      exact ⟨by rw [List.cons_append, ← i1], i2, i3⟩

theorem findFrom_flagTagRx (pos : Nat) (t : Str) : findFrom flagTagRx pos t = (findFlags t).map (fun q =>
    ⟨pos + q.1.length, ⟨pos + q.1.length + 1 + (group q.2.1).length, q.2.2, [(1, group q.2.1)]⟩⟩) := by
  induction t generalizing pos with
  | nil => rfl
  | cons c cs ih =>
    unfold findFrom findFlags
    by_cases hc : c = ':'
    · subst hc
      rw [run_flagTagRx]
      by_cases hp : (pieces cs).1 = []
      · rw [if_pos hp, if_neg (by simp [hp])]
        simp only
        rw [ih, Option.map_map]
        congr 1
        funext q
        simp only [Function.comp_def, List.length_cons]
        have : pos + 1 + q.1.length = pos + (q.1.length + 1) := by omega
        rw [this]
      · rw [if_neg hp, if_pos ⟨rfl, hp⟩]
        simp
    · rw [run_flagTagRx_other _ _ _ hc, if_neg (by simp [hc])]
      simp only [List.head?_nil]
      rw [ih, Option.map_map]
      congr 1
      funext q
      simp only [Function.comp_def, List.length_cons]
      have : pos + 1 + q.1.length = pos + (q.1.length + 1) := by omega
      rw [this]

theorem splitOn_append {sep : Char} {w : Str} (hw : sep ∉ w) (r : Str) :
    Str.splitOn sep (w ++ sep :: r) = w :: Str.splitOn sep r := by
  induction w with
  | nil => simp [Str.splitOn]
  | cons c w ih =>
    have hc : ¬ c = sep := fun h => hw (by simp [h])
    rw [List.cons_append, Str.splitOn, if_neg hc, ih (fun h => hw (by simp [h]))]

theorem splitOn_self {sep : Char} {w : Str} (hw : sep ∉ w) : Str.splitOn sep w = [w] := by
  induction w with
  | nil => rfl
  | cons c w ih =>
    have hc : ¬ c = sep := fun h => hw (by simp [h])
    rw [Str.splitOn, if_neg hc, ih (fun h => hw (by simp [h]))]

theorem splitOn_join {sep : Char} {ws : List Str} (hne : ws ≠ []) (hw : ∀ w ∈ ws, sep ∉ w) :
    Str.splitOn sep (Str.join [sep] ws) = ws := by
  induction ws with
  | nil => exact absurd rfl hne
  | cons w ws ih =>
    match ws, ih with
    | [], _ => exact splitOn_self (hw w (by simp))
    | v :: ws, ih =>
      unfold Str.join
      rw [List.append_assoc, List.singleton_append, splitOn_append (hw w (by simp)), ih (by simp) (fun x hx => hw x (by simp [hx]))]

theorem IsWord.colon {w : Str} (h : IsWord w) : ':' ∉ w := fun hc => absurd (h.2 _ hc) (by decide)
theorem IsWord.space {w : Str} (h : IsWord w) : ' ' ∉ w := fun hc => absurd (h.2 _ hc) (by decide)

theorem isWord_iff {w : Str} : IsWord w ↔ w ≠ [] ∧ ':' ∉ w ∧ ' ' ∉ w := by
  constructor
  · intro h; exact ⟨h.1, h.colon, h.space⟩
  · rintro ⟨h1, h2, h3⟩
    refine ⟨h1, fun c hc => ?_⟩
    unfold notColonSpace
    simp only [Bool.and_eq_true, bne_iff_ne, ne_eq]
    exact ⟨fun h => h2 (h ▸ hc), fun h => h3 (h ▸ hc)⟩

theorem group_eq_join {ws : List Str} (hne : ws ≠ []) : group ws = Str.join [':'] ws ++ [':'] := by
  induction ws with
  | nil => exact absurd rfl hne
  | cons w ws ih =>
    match ws, ih with
    | [], _ => simp [group, Str.join]
    | v :: ws, ih =>
      have := ih (by simp)
      unfold group at this ⊢
      rw [List.flatMap_cons, this]
      simp [Str.join]

theorem flags_of_group {ws : List Str} (hne : ws ≠ []) (hw : ∀ w ∈ ws, IsWord w) :
    (Str.trimEndChar ':' (group ws)).splitOn ':' = ws := by
  have h1 : Str.trimEndChar ':' (group ws) = Str.join [':'] ws := by
    rw [group_eq_join hne]
    unfold Str.trimEndChar
    rw [List.reverse_append, List.reverse_singleton, List.singleton_append, List.dropWhile_cons, if_pos (by decide)]
    have : (Str.join [':'] ws).reverse.dropWhile (· == ':') = (Str.join [':'] ws).reverse := by
      have hlast : ∃ init c, Str.join [':'] ws = init ++ [c] ∧ c ≠ ':' := by
        induction ws with
        | nil => exact absurd rfl hne
        | cons w ws ih =>
          match ws, ih with
          | [], _ =>
            have hw0 := hw w (by simp)
            refine ⟨w.dropLast, w.getLast hw0.1, ?_, ?_⟩
            · exact (List.dropLast_concat_getLast hw0.1).symm
            · intro h
              exact hw0.colon (h ▸ List.getLast_mem hw0.1)
          | v :: ws, ih =>
            obtain ⟨init, c, h1, h2⟩ := ih (by simp) (fun x hx => hw x (by simp [hx]))
            refine ⟨w ++ [':'] ++ init, c, ?_, h2⟩
            rw [Str.join, h1]; simp
      obtain ⟨init, c, h1, h2⟩ := hlast
      rw [h1, List.reverse_append, List.reverse_singleton, List.singleton_append, List.dropWhile_cons, if_neg (by simpa using h2)]
    rw [this, List.reverse_reverse]
  rw [h1, splitOn_join hne (fun w hw' => (hw w hw').colon)]

/-- Add tags. -/
def addTags (c : Comment) (ws : List Str) : Comment := { c with tags := ws.foldl (fun ts f => ts.insert f) c.tags }

/-- Add the text and the flags of a line. -/
def addLine (c : Comment) (t : Str) : Comment :=
  match _h : findFlags t with
  | none => pushText c t
  | some (b, ws, r) => addLine (addTags (pushText c b) ws) r
termination_by t.length
decreasing_by
  have := (findFlags_spec _h).1
  rw [this]; simp; omega

theorem addLine_none {c : Comment} {t : Str} (h : findFlags t = none) : addLine c t = pushText c t := by
  rw [addLine]
  split
  · rfl
  · rename_i h'; rw [h] at h'; cases h'

theorem addLine_some {c : Comment} {t b r : Str} {ws : List Str} (h : findFlags t = some (b, ws, r)) :
    addLine c t = addLine (addTags (pushText c b) ws) r := by
  rw [addLine]
  split
  · rename_i h'; rw [h] at h'; cases h'
  · rename_i h'; rw [h] at h'; cases h'; rfl

theorem pushText_nil (c : Comment) : pushText c [] = c := rfl

theorem flagLoop_eq (fuel : Nat) (pre t : Str) (c : Comment) (hf : t.length < fuel) :
    flagLoop (pre ++ t) c pre.length (capturesFrom flagTagRx fuel pre.length t) = addLine c t := by
  induction fuel generalizing pre t c with
  | zero => omega
  | succ fuel ih =>
    unfold capturesFrom
    rw [findFrom_flagTagRx]
    cases h : findFlags t with
    | none =>
      rw [addLine_none h]
      simp only [Option.map_none, flagLoop, List.length_append, List.drop_left]
      by_cases ht : t = []
      · subst ht; simp [pushText_nil]
      · have : 0 < t.length := List.length_pos_iff.2 ht
        rw [if_pos (by omega)]
    | some q =>
      obtain ⟨b, ws, r⟩ := q
      obtain ⟨h1, h2, h3⟩ := findFlags_spec h
      rw [addLine_some h]
      simp only [Option.map_some, flagLoop, List.drop_left]
      have hb : (if pre.length < pre.length + b.length then
          pushText c (t.take (pre.length + b.length - pre.length)) else c) = pushText c b := by
        rw [Nat.add_sub_cancel_left]
        by_cases hb : b = []
        · subst hb; simp [pushText_nil]
        · have : 0 < b.length := List.length_pos_iff.2 hb
          rw [if_pos (by omega), h1, List.take_left]
      rw [hb, if_neg (by omega)]
      have hg : Found.get ⟨pre.length + b.length, ⟨pre.length + b.length + 1 + (group ws).length, r, [(1, group ws)]⟩⟩ 1 = some (group ws) := rfl
      rw [hg, Option.getD_some, flags_of_group h2 h3]
      have hpre : pre ++ t = (pre ++ b ++ ':' :: group ws) ++ r := by rw [h1]; simp
      have hlen : pre.length + b.length + 1 + (group ws).length = (pre ++ b ++ ':' :: group ws).length := by simp; omega
      rw [hlen, hpre]
      apply ih
      have := congrArg List.length h1
      simp at this
      omega

/-- One line of a comment. -/
theorem parseLine_eq (c : Comment) (line : Str) (hn : '\n' ∉ line) : parseLine c line =
    match valueTag? line with
    | some (k, v) => { c with valueTags := c.valueTags.insert k v }
    | none => addLine c line := by
  unfold parseLine
  rw [← captures_valueTag line hn]
  cases captures valueTagRx line with
  | some m => rfl
  | none => exact flagLoop_eq _ [] line c (by omega)

end Comment
end Verif
