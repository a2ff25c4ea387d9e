import Verif.Model.Stdout

/-!
C95: when the program reports success, has everything been printed? The buffer of standard output is between `write_file`
and the file descriptor, nobody flushes it, and errors of the flush at the end of the program are ignored.
-/

namespace Verif

namespace Spec

/-- The text is empty or ends with an end of line. -/
def Terminated (t : Bytes) : Prop := t = [] ∨ t.getLast? = some 10

/-- `rest` is what the text has after its last end of line. -/
def LastLine (t rest : Bytes) : Prop := ∃ ls, t = ls ++ rest ∧ Terminated ls ∧ (10 : UInt8) ∉ rest

/-- The file descriptor exists. -/
def Opened (dev : Stdout.Device) : Prop := ∀ n, dev n ≠ .closed

end Spec

namespace Stdout
open Spec

variable {dev : Device}

/-- What a call may do: on success every byte is printed or in the buffer, on an error what is printed and in the buffer is
a part of the bytes from the start, in order. -/
def Keeps (whole : Bytes) (r : Bool × St) : Prop :=
  (r.1 = true → r.2.printed ++ r.2.buf = whole) ∧ (r.1 = false → r.2.printed ++ r.2.buf <+: whole)

theorem rawWriteAll_keeps (ho : Opened dev) (b : Bytes) {s : St} (hs : s.buf = []) :
    Keeps (s.printed ++ b) (rawWriteAll dev b s) ∧ (rawWriteAll dev b s).2.buf = [] := by
  unfold rawWriteAll Keeps
  split
  · simp [hs]
  · rename_i k _
    refine ⟨⟨by simp, fun _ => ?_⟩, hs⟩
    simp only [hs, List.append_nil]
    exact List.prefix_append_right_inj _ |>.2 (List.take_prefix k b)
  · rename_i h; exact absurd h (ho _)

theorem flushBuf_keeps (ho : Opened dev) (s : St) :
    Keeps (s.printed ++ s.buf) (flushBuf dev s) ∧ ((flushBuf dev s).1 = true → (flushBuf dev s).2.buf = []) := by
  unfold flushBuf Keeps
  split
  · rename_i h; simp [h]
  · split
    · simp
    · simp [List.append_assoc]
    · rename_i h; exact absurd h (ho _)

theorem flushBuf_empty {s : St} (h : s.buf = []) : flushBuf dev s = (true, s) := if_pos h

theorem bufWriteAll_keeps (ho : Opened dev) (b : Bytes) (s : St) (hl : s.buf.length ≤ capacity) :
    Keeps (s.printed ++ s.buf ++ b) (bufWriteAll dev b s) ∧
    ((bufWriteAll dev b s).1 = true → (bufWriteAll dev b s).2.buf.length ≤ capacity ∧
      ∀ c ∈ (bufWriteAll dev b s).2.buf, c ∈ s.buf ∨ c ∈ b) := by
  unfold bufWriteAll
  split
  · rename_i h
    refine ⟨⟨by simp, by simp⟩, fun _ => ⟨?_, by simp⟩⟩
    simp only [List.length_append]; omega
  · rename_i h
    by_cases hb : b.length > capacity - s.buf.length
    · rw [if_pos hb]
      obtain ⟨hk, he⟩ := flushBuf_keeps ho s
      generalize hr : flushBuf dev s = r at hk he
      obtain ⟨ok, s'⟩ := r
      cases ok with
      | false =>
        refine ⟨⟨by simp, fun _ => ?_⟩, by simp⟩
        exact (hk.2 rfl).trans (List.prefix_append _ _)
      | true =>
        have he : s'.buf = [] := he rfl
        have hp : s'.printed = s.printed ++ s.buf := by have := hk.1 rfl; simpa [he] using this
        simp only
        split
        · obtain ⟨hk2, he2⟩ := rawWriteAll_keeps ho b he
          rw [hp] at hk2
          exact ⟨hk2, fun _ => by rw [he2]; simp⟩
        · rename_i hc
          refine ⟨⟨fun _ => ?_, by simp⟩, fun _ => ⟨?_, ?_⟩⟩
          · simp [he, hp]
          · simp only [he, List.nil_append]; omega
          · simp only [he, List.nil_append]; exact fun _ h => Or.inr h
    · rw [if_neg hb]
      simp only
      split
      · rename_i hc
        have hs : s.buf = [] := by
          apply List.eq_nil_of_length_eq_zero
          have hcap : capacity = 1024 := rfl
          omega
        obtain ⟨hk2, he2⟩ := rawWriteAll_keeps ho b hs
        rw [hs, List.append_nil]
        exact ⟨hk2, fun _ => by rw [he2]; simp⟩
      · refine ⟨⟨by simp, by simp⟩, fun _ => ⟨?_, by simp⟩⟩
        simp only [List.length_append]; omega

theorem splitLines_append (b : Bytes) : (splitLines b).1 ++ (splitLines b).2 = b := by
  unfold splitLines
  rw [← List.reverse_append, List.takeWhile_append_dropWhile, List.reverse_reverse]

theorem splitLines_tail (b : Bytes) : (10 : UInt8) ∉ (splitLines b).2 := by
  intro h
  have h2 : (10 : UInt8) ∈ b.reverse.takeWhile (· != newline) := by simpa [splitLines] using h
  have := List.all_takeWhile (l := b.reverse) (p := (· != newline))
  rw [List.all_eq_true] at this
  have := this _ h2
  simp [newline] at this

theorem splitLines_head (b : Bytes) : Terminated (splitLines b).1 := by
  unfold Terminated splitLines
  simp only [List.getLast?_reverse, List.reverse_eq_nil_iff]
  cases h : b.reverse.dropWhile (· != newline) with
  | nil => exact Or.inl rfl
  | cons c cs =>
    refine Or.inr ?_
    have := List.head?_dropWhile_not (· != newline) b.reverse
    rw [h] at this
    simp only [List.head?_cons] at this
    simpa [newline] using this

/-- The buffer between two calls: it has no end of line, and at most its capacity. -/
def Calm (s : St) : Prop := s.buf.length ≤ capacity ∧ (10 : UInt8) ∉ s.buf

theorem writeAll_keeps (ho : Opened dev) (b : Bytes) {s : St} (hs : Calm s) :
    Keeps (s.printed ++ s.buf ++ b) (writeAll dev b s) ∧ ((writeAll dev b s).1 = true → Calm (writeAll dev b s).2) := by
  unfold writeAll
  split
  · simp only
    have hb := splitLines_append b
    have ht := splitLines_tail b
    generalize splitLines b = p at hb ht
    obtain ⟨ls, tl⟩ := p
    simp only at hb ht ⊢
    subst hb
    -- the lines
    have key : ∀ r : Bool × St, r = (if s.buf = [] then rawWriteAll dev ls s
           else match bufWriteAll dev ls s with
             | (false, s) => (false, s)
             | (true, s) => flushBuf dev s) →
        Keeps (s.printed ++ s.buf ++ ls) r ∧ (r.1 = true → r.2.buf = []) := by
      intro r hr
      split at hr
      · rename_i he
        obtain ⟨hk, hq⟩ := rawWriteAll_keeps ho ls he
        subst hr
        rw [he, List.append_nil]
        exact ⟨hk, fun _ => hq⟩
      · obtain ⟨hk, hq⟩ := bufWriteAll_keeps ho ls s hs.1
        generalize bufWriteAll dev ls s = q at hr hk hq
        obtain ⟨ok, s'⟩ := q
        cases ok with
        | false => subst hr; exact ⟨⟨by simp, fun _ => hk.2 rfl⟩, by simp⟩
        | true =>
          simp only at hr
          obtain ⟨hk2, he2⟩ := flushBuf_keeps ho s'
          rw [show s'.printed ++ s'.buf = _ from hk.1 rfl] at hk2
          subst hr
          exact ⟨hk2, he2⟩
    have key := key _ rfl
    generalize (if s.buf = [] then rawWriteAll dev ls s
           else match bufWriteAll dev ls s with
             | (false, s) => (false, s)
             | (true, s) => flushBuf dev s) = r at key
    obtain ⟨ok, s'⟩ := r
    obtain ⟨hk, he⟩ := key
    cases ok with
    | false =>
      refine ⟨⟨by simp, fun _ => ?_⟩, by simp⟩
      rw [← List.append_assoc]
      exact (hk.2 rfl).trans (List.prefix_append _ _)
    | true =>
      have he : s'.buf = [] := he rfl
      obtain ⟨hk2, hq⟩ := bufWriteAll_keeps ho tl s' (by simp [he])
      rw [show s'.printed ++ s'.buf = _ from hk.1 rfl, List.append_assoc _ ls tl] at hk2
      refine ⟨hk2, fun h => ⟨(hq h).1, fun hm => ?_⟩⟩
      rcases (hq h).2 _ hm with h1 | h1
      · simp [he] at h1
      · exact ht h1
  · rename_i hn
    have hlast : s.buf.getLast? ≠ some newline := fun h => hs.2 (List.mem_of_getLast? h)
    rw [if_neg hlast]
    obtain ⟨hk2, hq⟩ := bufWriteAll_keeps ho b s hs.1
    refine ⟨hk2, fun h => ⟨(hq h).1, fun hm => ?_⟩⟩
    rcases (hq h).2 _ hm with h1 | h1
    · exact hs.2 h1
    · exact hn h1

theorem writes_keeps (ho : Opened dev) : ∀ (texts : List Bytes) {s : St}, Calm s →
    Keeps (s.printed ++ s.buf ++ texts.flatten) (writes dev texts s) ∧
      ((writes dev texts s).1 = true → Calm (writes dev texts s).2)
  | [], s, hs => ⟨⟨by simp [writes], by simp [writes]⟩, fun _ => hs⟩
  | b :: bs, s, hs => by
    obtain ⟨hk, hc⟩ := writeAll_keeps ho b hs
    unfold writes
    generalize writeAll dev b s = r at hk hc
    obtain ⟨ok, s'⟩ := r
    cases ok with
    | false =>
      refine ⟨⟨by simp, fun _ => ?_⟩, by simp⟩
      simp only [List.flatten_cons]
      rw [← List.append_assoc]
      exact (hk.2 rfl).trans (List.prefix_append _ _)
    | true =>
      have ih := writes_keeps ho bs (hc rfl)
      rw [show s'.printed ++ s'.buf = _ from hk.1 rfl] at ih
      simp only [List.flatten_cons]
      rw [← List.append_assoc]
      exact ih

theorem start_calm : Calm St.start := ⟨by simp [St.start], by simp [St.start]⟩

theorem exit_keeps (ho : Opened dev) (s : St) :
    s.printed <+: (exit dev s).printed ∧ (exit dev s).printed <+: s.printed ++ s.buf := by
  unfold exit flushBuf
  split
  · simp
  · split
    · simp
    · rename_i k _
      simp only
      exact ⟨List.prefix_append _ _, List.prefix_append_right_inj _ |>.2 (List.take_prefix k _)⟩
    · rename_i h; exact absurd h (ho _)

/-- **C95 (what is printed).** Whatever fails and whenever, what is printed is the beginning of the texts, one after the
other: nothing is printed twice, nothing in another order, and nothing is left out in the middle. -/
theorem C95_in_order (ho : Opened dev) (texts : List Bytes) : (program dev texts).2 <+: texts.flatten := by
  obtain ⟨hk, _⟩ := writes_keeps ho texts start_calm
  unfold program
  simp only
  generalize writes dev texts .start = r at hk
  obtain ⟨ok, s⟩ := r
  have h := (exit_keeps ho s).2
  cases ok with
  | false => exact h.trans (by simpa [St.start] using hk.2 rfl)
  | true => rw [show s.printed ++ s.buf = _ from hk.1 rfl] at h; simpa [St.start] using h

/-- **C95 (what success can hide).** If the program reports success, what was not printed is at most 1024 bytes at the end, all of
them after the last end of line. -/
theorem C95_missing (ho : Opened dev) (texts : List Bytes) (h : (program dev texts).1 = true) :
    ∃ lost, texts.flatten = (program dev texts).2 ++ lost ∧ (10 : UInt8) ∉ lost ∧ lost.length ≤ 1024 := by
  obtain ⟨hk, hc⟩ := writes_keeps ho texts start_calm
  unfold program at h ⊢
  simp only at h ⊢
  generalize writes dev texts .start = r at hk hc h
  obtain ⟨ok, s⟩ := r
  simp only at h
  subst h
  obtain ⟨⟨m, hm⟩, hx⟩ := exit_keeps ho s
  have hw : s.printed ++ s.buf = texts.flatten := by have := hk.1 rfl; simpa [St.start] using this
  obtain ⟨lost, hl⟩ := hx
  refine ⟨lost, by rw [hl, hw], ?_, ?_⟩
  all_goals
    rw [← hm, List.append_assoc, List.append_cancel_left_eq] at hl
    have hcalm := hc rfl
    unfold Calm at hcalm
    rw [← hl] at hcalm
  · exact fun hm => hcalm.2 (List.mem_append_right _ hm)
  · have := hcalm.1
    have hcap : capacity = 1024 := rfl
    simp only [List.length_append] at this
    omega

/-- **C95 (success is success).** If the texts together end with an end of line and the program reports success, everything was printed. -/
theorem C95_success (ho : Opened dev) (texts : List Bytes) (ht : Terminated texts.flatten) (h : (program dev texts).1 = true) :
    (program dev texts).2 = texts.flatten := by
  obtain ⟨lost, hw, hn, _⟩ := C95_missing ho texts h
  cases lost.eq_nil_or_concat with
  | inl he => rw [hw, he, List.append_nil]
  | inr he =>
    obtain ⟨l, c, rfl⟩ := he
    rcases ht with ht | ht
    · rw [ht] at hw; simp at hw
    · rw [hw, List.concat_eq_append, ← List.append_assoc, List.getLast?_append] at ht
      simp at ht
      subst ht
      simp at hn

/-- **C95 (nothing fails).** If no call fails, the program reports success and everything is printed. -/
theorem C95_no_failure (ha : ∀ n, dev n = .all) (texts : List Bytes) : program dev texts = (true, texts.flatten) := by
  have ho : Opened dev := fun n => by rw [ha]; simp
  have raw : ∀ b s, (rawWriteAll dev b s).1 = true := by intro b s; unfold rawWriteAll; rw [ha]
  have fl : ∀ s, (flushBuf dev s).1 = true := by intro s; unfold flushBuf; rw [ha]; split <;> rfl
  have bw : ∀ b s, (bufWriteAll dev b s).1 = true := by
    intro b s
    unfold bufWriteAll
    split
    · rfl
    · split
      · rename_i s' h; split at h
        · have := fl s; rw [h] at this; exact this
        · cases h
      · split
        · exact raw _ _
        · rfl
  have wa : ∀ b s, (writeAll dev b s).1 = true := by
    intro b s
    unfold writeAll
    split
    · simp only
      split
      · rename_i s' h
        split at h
        · have := raw (splitLines b).1 s; rw [h] at this; exact this
        · split at h
          · rename_i h2; have := bw (splitLines b).1 s; rw [h2] at this; exact this
          · rename_i s2 h2; have := fl s2; rw [h] at this; exact this
      · exact bw _ _
    · split
      · rename_i s' h
        split at h
        · have := fl s; rw [h] at this; exact this
        · cases h
      · exact bw _ _
  have ws : ∀ texts s, (writes dev texts s).1 = true := by
    intro texts
    induction texts with
    | nil => exact fun s => rfl
    | cons b bs ih =>
      intro s
      unfold writes
      split
      · rename_i s' h; have := wa b s; rw [h] at this; exact this
      · exact ih _
  refine Prod.ext (ws texts _) ?_
  have hk := (writes_keeps ho texts start_calm).1.1 (ws texts _)
  unfold program exit
  simp only
  generalize writes dev texts .start = r at hk ⊢
  rw [show St.start.printed ++ St.start.buf ++ texts.flatten = texts.flatten from rfl] at hk
  unfold flushBuf
  split
  · rename_i he; rw [← hk, he, List.append_nil]
  · rw [ha]; exact hk

/-- **C95 (a closed standard output).** If the file descriptor does not exist, the program reports success for whatever texts and
prints nothing. -/
theorem C95_closed (hc : ∀ n, dev n = .closed) (texts : List Bytes) : program dev texts = (true, []) := by
  have raw : ∀ b s, (rawWriteAll dev b s).1 = true ∧ (rawWriteAll dev b s).2.printed = s.printed := by
    intro b s; unfold rawWriteAll; rw [hc]; exact ⟨rfl, rfl⟩
  have fl : ∀ s, (flushBuf dev s).1 = true ∧ (flushBuf dev s).2.printed = s.printed := by
    intro s; unfold flushBuf; rw [hc]; split <;> exact ⟨rfl, rfl⟩
  have bw : ∀ b s, (bufWriteAll dev b s).1 = true ∧ (bufWriteAll dev b s).2.printed = s.printed := by
    intro b s
    unfold bufWriteAll
    split
    · exact ⟨rfl, rfl⟩
    · split
      · rename_i s' h; split at h
        · have := (fl s).1; rw [h] at this; cases this
        · cases h
      · rename_i s' h
        have hp : s'.printed = s.printed := by
          split at h
          · have := (fl s).2; rw [h] at this; exact this
          · cases h; rfl
        split
        · exact ⟨(raw b s').1, (raw b s').2.trans hp⟩
        · exact ⟨rfl, hp⟩
  have wa : ∀ b s, (writeAll dev b s).1 = true ∧ (writeAll dev b s).2.printed = s.printed := by
    intro b s
    unfold writeAll
    split
    · simp only
      split
      · rename_i s' h
        split at h
        · have := (raw (splitLines b).1 s).1; rw [h] at this; cases this
        · split at h
          · rename_i h2; have := (bw (splitLines b).1 s).1; rw [h2] at this; cases this
          · rename_i s2 h2; have := (fl s2).1; rw [h] at this; cases this
      · rename_i s' h
        have hp : s'.printed = s.printed := by
          split at h
          · have := (raw (splitLines b).1 s).2; rw [h] at this; exact this
          · split at h
            · cases h
            · rename_i s2 h2
              have h3 := (fl s2).2; rw [h] at h3
              have h4 := (bw (splitLines b).1 s).2; rw [h2] at h4
              exact h3.trans h4
        exact ⟨(bw _ s').1, (bw _ s').2.trans hp⟩
    · split
      · rename_i s' h
        split at h
        · have := (fl s).1; rw [h] at this; cases this
        · cases h
      · rename_i s' h
        have hp : s'.printed = s.printed := by
          split at h
          · have := (fl s).2; rw [h] at this; exact this
          · cases h; rfl
        exact ⟨(bw _ s').1, (bw _ s').2.trans hp⟩
  have ws : ∀ texts s, (writes dev texts s).1 = true ∧ (writes dev texts s).2.printed = s.printed := by
    intro texts
    induction texts with
    | nil => exact fun s => ⟨rfl, rfl⟩
    | cons b bs ih =>
      intro s
      unfold writes
      split
      · rename_i s' h; have := (wa b s).1; rw [h] at this; cases this
      · rename_i s' h
        have := (wa b s).2; rw [h] at this
        exact ⟨(ih s').1, (ih s').2.trans this⟩
  unfold program
  refine Prod.ext (ws texts _).1 ?_
  exact ((fl _).2.trans (ws texts _).2)

theorem splitLines_of {t rest : Bytes} (h : LastLine t rest) : (splitLines t).2 = rest := by
  obtain ⟨ls, rfl, ht, hr⟩ := h
  unfold splitLines
  simp only [List.reverse_append]
  have hr2 : ∀ c ∈ rest.reverse, (c != newline) = true := by
    intro c hc
    simp only [newline, bne_iff_ne, ne_eq]
    rintro rfl
    exact hr (List.mem_reverse.1 hc)
  rw [List.takeWhile_append_of_pos hr2]
  have : ls.reverse.takeWhile (· != newline) = [] := by
    rcases ht with rfl | ht
    · rfl
    · have hh : ls.reverse.head? = some 10 := by rw [List.head?_reverse]; exact ht
      cases hl : ls.reverse with
      | nil => rfl
      | cons c cs =>
        rw [hl] at hh
        simp only [List.head?_cons, Option.some.injEq] at hh
        subst hh
        simp [newline]
  rw [this, List.append_nil, List.reverse_reverse]

theorem lastLine_splitLines (t : Bytes) : LastLine t (splitLines t).2 :=
  ⟨(splitLines t).1, (splitLines_append t).symm, splitLines_head t, splitLines_tail t⟩

theorem bufWriteAll_large {b : Bytes} {s : St} (hs : s.buf = []) (hb : 1024 ≤ b.length) :
    bufWriteAll dev b s = rawWriteAll dev b s := by
  have hcap : capacity = 1024 := rfl
  unfold bufWriteAll
  rw [if_neg (by rw [hs, hcap]; simp; omega), flushBuf_empty hs, ite_self]
  simp only
  rw [if_pos (by rw [hcap]; exact hb)]

theorem bufWriteAll_small {b : Bytes} {s : St} (hs : s.buf = []) (hb : b.length < 1024) :
    bufWriteAll dev b s = (true, { s with buf := b }) := by
  have hcap : capacity = 1024 := rfl
  unfold bufWriteAll
  rw [if_pos (by rw [hs, hcap]; simpa using hb), hs]
  rfl

/-- One text and an empty buffer: the lines are written at once, the rest as `bufWriteAll` does it. -/
theorem writeAll_empty (b : Bytes) {s : St} (hs : s.buf = []) :
    writeAll dev b s =
      match (if newline ∈ b then rawWriteAll dev (splitLines b).1 s else (true, s)) with
      | (false, s) => (false, s)
      | (true, s) => bufWriteAll dev (splitLines b).2 s := by
  unfold writeAll
  split
  · simp only
    rfl
  · rename_i h
    rw [if_neg (by rw [hs]; simp)]
    have : (splitLines b).2 = b := splitLines_of ⟨[], by simp, Or.inl rfl, h⟩
    rw [this]

/-- **C95 (exactly when success can be wrong).** One text can be lost in part without an error if, and only if, it has an
unfinished last line of less than 1024 bytes. -/
theorem C95_exact (t : Bytes) :
    (∃ dev, Opened dev ∧ (program dev [t]).1 = true ∧ (program dev [t]).2 ≠ t) ↔
      ∃ rest, LastLine t rest ∧ rest ≠ [] ∧ rest.length < 1024 := by
  constructor
  · rintro ⟨dev, ho, hok, hne⟩
    refine ⟨(splitLines t).2, lastLine_splitLines t, ?_, ?_⟩
    · intro he
      apply hne
      have ht : Terminated [t].flatten := by
        have h1 := splitLines_append t
        rw [he, List.append_nil] at h1
        have h2 := splitLines_head t
        rw [h1] at h2
        simpa using h2
      simpa using C95_success ho [t] ht hok
    · refine Nat.lt_of_not_le fun hl => hne ?_
      have key : (writeAll dev t .start).1 = true → (writeAll dev t .start).2.buf = [] := by
        rw [writeAll_empty t rfl]
        split
        · simp
        · rename_i s' h
          have hb : s'.buf = [] := by
            split at h
            · have := (rawWriteAll_keeps ho (splitLines t).1 (s := .start) rfl).2
              rw [h] at this
              exact this
            · cases h; rfl
          rw [bufWriteAll_large hb (by omega)]
          exact fun _ => (rawWriteAll_keeps ho _ hb).2
      obtain ⟨hk, _⟩ := writeAll_keeps ho t start_calm
      unfold program writes at hok ⊢
      generalize writeAll dev t .start = r at *
      obtain ⟨ok, s⟩ := r
      cases ok with
      | false => simp at hok
      | true =>
        simp only [writes, exit]
        have hb : s.buf = [] := key rfl
        rw [flushBuf_empty hb]
        have := hk.1 rfl
        simpa [hb, St.start] using this
  · rintro ⟨rest, hl, hne, hlen⟩
    have hsp := splitLines_of hl
    refine ⟨fun n => if n < (if newline ∈ t then 1 else 0) then .all else .fails 0, fun n => ?_, ?_⟩
    · by_cases h : n < (if newline ∈ t then 1 else 0)
      · simp only [h, if_true]; simp
      · simp only [h, if_false]; simp
    · have hw : writeAll (fun n => if n < (if newline ∈ t then 1 else 0) then Answer.all else .fails 0) t .start =
          (true, ⟨rest, (splitLines t).1, if newline ∈ t then 1 else 0⟩) := by
        rw [writeAll_empty t rfl, hsp]
        by_cases hn : newline ∈ t
        · simp only [hn, if_true]
          unfold rawWriteAll
          simp only [St.start, Nat.lt_one_iff, if_true, List.nil_append, Nat.zero_add]
          rw [bufWriteAll_small rfl hlen]
        · simp only [hn, if_false]
          rw [bufWriteAll_small rfl hlen]
          have : rest = t := by
            rw [← hsp]; exact splitLines_of ⟨[], by simp, Or.inl rfl, hn⟩
          have h1 : (splitLines t).1 = [] := by
            have h2 := splitLines_append t
            rw [hsp, this] at h2
            simpa using h2
          rw [h1]
          rfl
      unfold program writes
      rw [hw]
      simp only [writes, exit, flushBuf, hne, if_false, Nat.lt_irrefl, List.take_zero, List.append_nil]
      refine ⟨trivial, fun he => hne ?_⟩
      have h2 := splitLines_append t
      rw [hsp, he] at h2
      simpa using h2

/-! ### The model of `write_file` without the buffer -/

/-- The same texts with `write_file` of `Model/Files`, which writes standard output at once (/repo/src/filespec.rs:79-83). -/
def printAll (sys : Sys) : List Str → Prog Unit
  | [] => pure ()
  | t :: ts => do
    Files.writeFile sys .stdio t
    printAll sys ts

/-- What the effects print. -/
def _root_.Verif.Spec.printedBy (log : List Eff) : Bytes :=
  log.filterMap fun e => match e with
    | .print b => some b
    | _ => none

theorem printedBy_append (a b : List Eff) : printedBy (a ++ b) = printedBy a ++ printedBy b := by
  simp [printedBy]

theorem printedBy_print (b : Bytes) : printedBy (b.map .print) = b := by
  induction b with
  | nil => rfl
  | cons c cs ih => simpa [printedBy] using ih

theorem writeAll_terminated (ho : Opened dev) {b : Bytes} (hb : Terminated b) {s : St} (hs : s.buf = []) :
    ∃ a : Option Nat, (writeAll dev b s).1 = a.isNone ∧ (writeAll dev b s).2.buf = [] ∧
      (writeAll dev b s).2.printed = s.printed ++ (match a with | none => b | some k => b.take k) := by
  have h2 : (splitLines b).2 = [] := splitLines_of ⟨b, by simp, hb, by simp⟩
  have h1 : (splitLines b).1 = b := by have := splitLines_append b; rwa [h2, List.append_nil] at this
  rw [writeAll_empty b hs, h1, h2]
  by_cases hn : newline ∈ b
  · rw [if_pos hn]
    unfold rawWriteAll
    cases hd : dev s.calls with
    | all =>
      refine ⟨none, ?_⟩
      simp only
      rw [bufWriteAll_small (by exact hs) (by simp)]
      exact ⟨rfl, rfl, rfl⟩
    | fails k => exact ⟨some k, rfl, hs, rfl⟩
    | closed => exact absurd hd (ho _)
  · rw [if_neg hn]
    have hbe : b = [] := by
      rcases hb with h | h
      · exact h
      · exact absurd (List.mem_of_getLast? h) hn
    subst hbe
    refine ⟨none, ?_⟩
    simp only
    rw [bufWriteAll_small hs (by simp)]
    exact ⟨rfl, rfl, by simp⟩

theorem writes_refines (ho : Opened dev) : ∀ (texts : List Str), (∀ t ∈ texts, Terminated (encodeUtf8 t)) →
    ∀ (s : St), s.buf = [] → ∀ n, ∃ fault : Nat → Option Nat, ∀ (sys : Sys), (∀ m, n ≤ m → sys.fault m = fault m) →
      ∀ w : World, w.ops = n →
      ((writes dev (texts.map encodeUtf8) s).1 = true ↔ (printAll sys texts w).1 = .ok ()) ∧
      (writes dev (texts.map encodeUtf8) s).2.buf = [] ∧
      ∃ out, (writes dev (texts.map encodeUtf8) s).2.printed = s.printed ++ out ∧
        (printAll sys texts w).2.log = w.log ++ out.map .print
  | [], _, s, hs, n => ⟨fun _ => none, fun sys _ w _ => ⟨⟨fun _ => rfl, fun _ => rfl⟩, hs, [], by simp [writes], by
      show w.log = _
      simp⟩⟩
  | t :: ts, ht, s, hs, n => by
    obtain ⟨a, h1, h2, h3⟩ := writeAll_terminated ho (ht t (by simp)) hs
    simp only [List.map_cons]
    unfold writes
    generalize writeAll dev (encodeUtf8 t) s = r at h1 h2 h3
    obtain ⟨ok, s'⟩ := r
    simp only at h1 h2 h3
    cases a with
    | some k =>
      have : ok = false := h1
      subst this
      refine ⟨fun _ => some k, fun sys hf w hw => ?_⟩
      have hp : printAll sys (t :: ts) w =
          (.error .write, { w with ops := w.ops + 1, log := w.log ++ ((encodeUtf8 t).take k).map .print }) := by
        show Prog.bind _ _ w = _
        unfold Prog.bind Files.writeFile
        simp only [hf w.ops (by omega)]
      rw [hp]
      exact ⟨⟨by simp, by simp⟩, h2, _, h3, rfl⟩
    | none =>
      have : ok = true := h1
      subst this
      obtain ⟨f, hf⟩ := writes_refines ho ts (fun u hu => ht u (by simp [hu])) s' h2 (n + 1)
      refine ⟨fun m => if m = n then none else f m, fun sys hsys w hw => ?_⟩
      have hp : printAll sys (t :: ts) w =
          printAll sys ts { w with ops := w.ops + 1, log := w.log ++ (encodeUtf8 t).map .print } := by
        show Prog.bind _ _ w = _
        unfold Prog.bind Files.writeFile
        have : sys.fault w.ops = none := by rw [hsys w.ops (by omega)]; exact if_pos hw
        simp only [this]
      rw [hp]
      obtain ⟨g1, g2, out, g3, g4⟩ := hf sys (fun m hm => by rw [hsys m (by omega)]; exact if_neg (by omega))
        { w with ops := w.ops + 1, log := w.log ++ (encodeUtf8 t).map .print } (by simp [hw])
      refine ⟨g1, g2, encodeUtf8 t ++ out, ?_, ?_⟩
      · rw [g3, h3, List.append_assoc]
      · rw [g4]; simp

/-- **C95 (the buffer does not matter for whole lines).** If every text ends with an end of line, then what the program with the buffer
does, the model of `write_file` without a buffer does as well, for some schedule of failures: the same result, and the same
bytes are printed. The theorems about commands hold for all schedules, so they hold with the buffer. -/
theorem C95_refines (ho : Opened dev) (texts : List Str) (ht : ∀ t ∈ texts, Terminated (encodeUtf8 t)) :
    ∃ fault : Nat → Option Nat, ∀ sys : Sys, sys.fault = fault →
      ((program dev (texts.map encodeUtf8)).1 = true ↔ (printAll sys texts .start).1 = .ok ()) ∧
      (program dev (texts.map encodeUtf8)).2 = printedBy (printAll sys texts .start).2.log := by
  obtain ⟨f, hf⟩ := writes_refines ho texts ht .start rfl 0
  refine ⟨f, fun sys hsys => ?_⟩
  obtain ⟨g1, g2, out, g3, g4⟩ := hf sys (fun m _ => by rw [hsys]) .start rfl
  refine ⟨g1, ?_⟩
  unfold program exit
  simp only
  rw [flushBuf_empty g2, g3, g4]
  simp [World.start, St.start, printedBy_print]

/-! ### Cases -/

/-- The disk is full after the first two calls. -/
def _root_.Verif.Ex.fullAfter2 : Device := fun n => if n < 2 then .all else .fails 0

/-- Two journals that end with an end of line, as `C95_success` and `C95_refines` want them: all is printed, with two calls. -/
example : program Ex.fullAfter2 ["a b\n".toUTF8.toList, "c\nd\n".toUTF8.toList] = (true, "a b\nc\nd\n".toUTF8.toList) := by
  decide +kernel

/-- With a third one there is an error. -/
example : program Ex.fullAfter2 ["a\n".toUTF8.toList, "b\n".toUTF8.toList, "c\n".toUTF8.toList] = (false, "a\nb\n".toUTF8.toList) := by
  decide +kernel

/-- A last line without an end is lost, and the program reports success (`C95_exact`, `C95_missing`). -/
example : program Ex.fullAfter2 ["a\n".toUTF8.toList, "b\nend".toUTF8.toList] = (true, "a\nb\n".toUTF8.toList) := by
  decide +kernel

/-- The lost line meets the conditions of `C95_exact`. -/
example : LastLine [97, 10, 98] [98] ∧ ([98] : Bytes) ≠ [] ∧ ([98] : Bytes).length < 1024 :=
  ⟨⟨[97, 10], rfl, Or.inr rfl, by decide⟩, by decide, by decide⟩

end Stdout
end Verif
