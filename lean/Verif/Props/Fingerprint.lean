import Verif.Proofs.Fingerprint
import Verif.Props.Comments
import Verif.Spec.Posting
import Verif.Model.NationwidePdf
import Verif.Model.PaypalCsv

/-!
# Properties of fingerprints (C40 - C43)
-/

namespace Verif
open Spec

/-! ## C43: which names and namespaces are accepted -/

theorem validPart_spec (s : Str) : FingerprintBuilder.validPartRx.isMatch s = true ↔ ∀ c ∈ s, PartChar c := by
  rw [validPart_iff, List.all_eq_true]
  exact forall₂_congr fun c _ => partChar_iff c

/-- C43: making a fingerprint fails exactly if the name of the algorithm or the namespace has a character that is not a letter or
digit of ASCII, `_`, `+` or `/`. -/
theorem C43_accepted_iff (name : Str) (version : Int) (ns : Str) :
    (∃ b, FingerprintBuilder.new name version ns = .ok b) ↔ (∀ c ∈ name, PartChar c) ∧ (∀ c ∈ ns, PartChar c) := by
  rw [← validPart_spec, ← validPart_spec]
  unfold FingerprintBuilder.new
  cases FingerprintBuilder.validPartRx.isMatch name <;> cases FingerprintBuilder.validPartRx.isMatch ns <;> simp

/-- C43: the error tells which of the two is bad, the name first. -/
theorem C43_error (name : Str) (version : Int) (ns : Str) :
    (FingerprintBuilder.new name version ns = .error (.name name) ↔ ∃ c ∈ name, ¬ PartChar c) ∧
    (FingerprintBuilder.new name version ns = .error (.namespace_ ns) ↔ (∀ c ∈ name, PartChar c) ∧ ∃ c ∈ ns, ¬ PartChar c) := by
  have e : ∀ s : Str, (∃ c ∈ s, ¬ PartChar c) ↔ FingerprintBuilder.validPartRx.isMatch s = false := by
    intro s
    rw [← Bool.not_eq_true, validPart_spec]
    push Not
    rfl
  rw [e, e, ← validPart_spec]
  unfold FingerprintBuilder.new
  cases FingerprintBuilder.validPartRx.isMatch name <;> cases FingerprintBuilder.validPartRx.isMatch ns <;> simp

/-- What the builder starts with. -/
theorem new_ok {name ns : Str} {version : Int} {b : FingerprintBuilder} (h : FingerprintBuilder.new name version ns = .ok b) :
    b = ⟨[], name, version, ns⟩ ∧ (∀ c ∈ name, PartChar c) ∧ (∀ c ∈ ns, PartChar c) := by
  refine ⟨?_, (C43_accepted_iff name version ns).1 ⟨b, h⟩⟩
  unfold FingerprintBuilder.new at h
  split at h
  · cases h
  · split at h
    · cases h
    · cases h; rfl

example : (∃ b, FingerprintBuilder.new "nwcsv5".toList 1 "a_B+9/".toList = .ok b) ∧
    FingerprintBuilder.new "nwcsv5".toList 1 "my bank".toList = .error (.namespace_ "my bank".toList) ∧
    FingerprintBuilder.new "nw-csv".toList 1 "my bank".toList = .error (.name "nw-csv".toList) ∧
    FingerprintBuilder.new "nwcsv5".toList 1 "é".toList = .error (.namespace_ "é".toList) := by
  rw [C43_accepted_iff, (C43_error _ _ _).1, (C43_error _ _ _).2, (C43_error _ _ _).2]
  decide +kernel

/-! ## C41: tags -/

/-- A fingerprint that a builder can make: the builder was accepted, values were added to it, and it was built with some hash
function. -/
def Built (f : Fingerprint) : Prop :=
  ∃ (name : Str) (version : Int) (ns : Str) (b : FingerprintBuilder) (sha1 : Bytes → Bytes) (vs : List Bytes),
    FingerprintBuilder.new name version ns = .ok b ∧ f = (vs.foldl FingerprintBuilder.with_ b).build sha1

theorem with_parts (b : FingerprintBuilder) (vs : List Bytes) :
    vs.foldl FingerprintBuilder.with_ b = ⟨b.acc ++ vs.flatten, b.algorithmName, b.algorithmVersion, b.userNamespace⟩ := by
  induction vs generalizing b with
  | nil => simp
  | cons v vs ih => rw [List.foldl_cons, ih]; simp [FingerprintBuilder.with_]

theorem Built.parts {f : Fingerprint} (h : Built f) :
    (∀ c ∈ f.algorithmName, PartChar c) ∧ (∀ c ∈ f.userNamespace, PartChar c) ∧ (∀ c ∈ f.value, Base64Char c) := by
  obtain ⟨name, version, ns, b, sha1, vs, hb, rfl⟩ := h
  obtain ⟨rfl, h1, h2⟩ := new_ok hb
  rw [with_parts]
  exact ⟨h1, h2, base64_chars _⟩

theorem cut_at {sep : Char} {a b r s : Str} (ha : sep ∉ a) (hb : sep ∉ b) (h : a ++ sep :: r = b ++ sep :: s) : a = b ∧ r = s := by
  induction a generalizing b with
  | nil =>
    cases b with
    | nil => exact ⟨rfl, (List.cons.inj h).2⟩
    | cons c b => exact absurd (by have := (List.cons.inj h).1; subst this; simp) hb
  | cons c a ih =>
    cases b with
    | nil => exact absurd (by have := (List.cons.inj h).1; subst this; simp) ha
    | cons d b =>
      obtain ⟨h1, h2⟩ := List.cons.inj h
      obtain ⟨h3, h4⟩ := ih (fun h => ha (List.mem_cons_of_mem _ h)) (fun h => hb (List.mem_cons_of_mem _ h)) h2
      exact ⟨by rw [h1, h3], h4⟩

theorem no_char {s : Str} (h : ∀ c ∈ s, PartChar c) {c : Char} (hc : ¬ PartChar c) : c ∉ s := fun hm => hc (h c hm)

theorem tag_eq (f : Fingerprint) : f.tag = Tags.fingerprintPrefix ++
    (f.algorithmName ++ '.' :: (Str.ofInt f.algorithmVersion ++ '.' :: (f.userNamespace ++ '-' :: f.value))) := by
  unfold Fingerprint.tag; simp

theorem legacyTag_eq (f : Fingerprint) : f.legacyTag = Tags.fingerprintPrefix ++ (f.userNamespace ++ '-' :: f.value) := by
  unfold Fingerprint.legacyTag; simp

theorem ofInt_toString (v : Int) : Str.ofInt v = (toString v).toList := by
  cases v with
  | ofNat n =>
    rw [Str.ofInt, if_neg (by simp only [Int.ofNat_eq_natCast]; omega)]
    show _ = (Nat.repr n).toList
    rw [Nat.repr, String.toList_ofList]
    rfl
  | negSucc n =>
    rw [Str.ofInt, if_pos (Int.negSucc_lt_zero n)]
    show _ = ("-" ++ Nat.repr (n + 1)).toList
    rw [Nat.repr, String.toList_append]
    simp

/-- C41: the texts of tags, with the version as a decimal number. -/
theorem C41_text (f : Fingerprint) :
    f.tag = s!"fp-{String.ofList f.algorithmName}.{f.algorithmVersion}.{String.ofList f.userNamespace}-{String.ofList f.value}".toList ∧
    f.legacyTag = s!"fp-{String.ofList f.userNamespace}-{String.ofList f.value}".toList := by
  refine ⟨?_, ?_⟩
  · rw [tag_eq, ofInt_toString]
    simp [toString, Tags.fingerprintPrefix]
  · rw [legacyTag_eq]
    simp [toString, Tags.fingerprintPrefix]

/-- C41: the tag of a fingerprint determines the name and version of the algorithm, the namespace and the value. -/
theorem C41_tag {f g : Fingerprint} (hf : Built f) (hg : Built g) (h : f.tag = g.tag) : f = g := by
  obtain ⟨f1, f2, _⟩ := hf.parts
  obtain ⟨g1, g2, _⟩ := hg.parts
  rw [tag_eq, tag_eq] at h
  have h := List.append_cancel_left h
  obtain ⟨h1, h⟩ := cut_at (no_char f1 (by decide)) (no_char g1 (by decide)) h
  obtain ⟨h2, h⟩ := cut_at (ofInt_no_dot _) (ofInt_no_dot _) h
  obtain ⟨h3, h4⟩ := cut_at (no_char f2 (by decide)) (no_char g2 (by decide)) h
  have h2 := ofInt_inj h2
  cases f; cases g
  simp_all

/-- C41: the legacy tag determines the namespace and the value. -/
theorem C41_legacy_tag {f g : Fingerprint} (hf : Built f) (hg : Built g) (h : f.legacyTag = g.legacyTag) :
    f.userNamespace = g.userNamespace ∧ f.value = g.value := by
  rw [legacyTag_eq, legacyTag_eq] at h
  exact cut_at (no_char hf.parts.2.1 (by decide)) (no_char hg.parts.2.1 (by decide)) (List.append_cancel_left h)

/-- C41: no tag is the legacy tag of any fingerprint. -/
theorem C41_tag_ne_legacy {f g : Fingerprint} (hg : Built g) : f.tag ≠ g.legacyTag := by
  intro h
  have h1 : '.' ∈ f.userNamespace ++ '-' :: f.value ∨ '.' ∈ g.legacyTag := by
    right; rw [← h, tag_eq]; simp
  have h2 : '.' ∉ g.legacyTag := by
    rw [legacyTag_eq]
    simp only [List.mem_append, List.mem_cons, not_or]
    refine ⟨by decide, no_char hg.parts.2.1 (by decide), by decide, ?_⟩
    intro hm
    exact absurd (hg.parts.2.2 _ hm) (by decide)
  exact h2 (by rw [← h, tag_eq]; simp)

/-- Fingerprints as in the tests of the code (/repo/src/fingerprint.rs:289-313), with the hash left as it is. -/
def sampleFp (ns : Str) (v : Bytes) : Fingerprint :=
  ([v].foldl FingerprintBuilder.with_ ⟨[], "nwcsv6".toList, 1, ns⟩).build id

theorem sampleFp_built {ns : Str} {v : Bytes} (h : ∀ c ∈ ns, PartChar c) : Built (sampleFp ns v) := by
  obtain ⟨b, hb⟩ := (C43_accepted_iff "nwcsv6".toList 1 ns).2 ⟨by decide +kernel, h⟩
  exact ⟨_, _, _, b, id, [v], hb, by rw [(new_ok hb).1]; rfl⟩

example : Built (sampleFp "acc/1".toList (Enc.str "x".toList)) ∧ Built (sampleFp "acc/2".toList (Enc.str "x".toList)) ∧
    (sampleFp "acc/1".toList (Enc.str "x".toList)).tag = "fp-nwcsv6.1.acc/1-AAAAAAAAAAF4".toList :=
  ⟨sampleFp_built (by decide +kernel), sampleFp_built (by decide +kernel), by decide +kernel⟩

/-! ## C42: tags in the journal -/

theorem word_of_chars {s : Str} (hne : s ≠ []) (h : ∀ c ∈ s, c ≠ ':' ∧ c ≠ ' ' ∧ c ≠ '\n') : Word s ∧ '\n' ∉ s :=
  ⟨⟨hne, fun hm => (h _ hm).1 rfl, fun hm => (h _ hm).2.1 rfl⟩, fun hm => (h _ hm).2.2 rfl⟩

theorem partChar_plain {c : Char} (h : PartChar c) : c ≠ ':' ∧ c ≠ ' ' ∧ c ≠ '\n' := by
  refine ⟨?_, ?_, ?_⟩ <;> rintro rfl <;> revert h <;> decide

theorem base64_part {c : Char} (h : Base64Char c) : PartChar c := by
  rcases h with h | h | h
  · exact Or.inl h
  · exact Or.inr (Or.inr (Or.inl h))
  · exact Or.inr (Or.inr (Or.inr h))

theorem digit_plain {c : Char} (h : c.isDigit = true) : PartChar c := by
  refine Or.inl ?_
  unfold Char.isAlphanum
  rw [h, Bool.or_true]

theorem ofInt_plain (v : Int) : ∀ c ∈ Str.ofInt v, PartChar c ∨ c = '-' := by
  intro c hc
  have h : ∀ n : Nat, c ∈ Nat.toDigits 10 n → PartChar c :=
    fun n hm => digit_plain (Nat.isDigit_of_mem_toDigits (by decide) (by decide) hm)
  unfold Str.ofInt at hc
  split at hc
  · rw [List.mem_cons] at hc
    rcases hc with rfl | hc
    · exact Or.inr rfl
    · exact Or.inl (h _ hc)
  · exact Or.inl (h _ hc)

/-- C42: the tag is recognised as a fingerprint and is a word without colon, space and newline. -/
theorem C42_tag {f : Fingerprint} (hf : Built f) : IsFp f.tag ∧ isFingerprint f.tag = true ∧ Word f.tag ∧ '\n' ∉ f.tag := by
  obtain ⟨h1, h2, h3⟩ := hf.parts
  have hp : fpPrefix <+: f.tag := by rw [tag_eq]; exact List.prefix_append _ _
  refine ⟨hp, List.isPrefixOf_iff_prefix.2 hp, word_of_chars ?_ ?_⟩
  · rw [tag_eq]; simp
  · intro c hc
    rw [tag_eq] at hc
    simp only [List.mem_append, List.mem_cons] at hc
    rcases hc with hc | hc | rfl | hc | rfl | hc | rfl | hc
    · revert c; decide
    · exact partChar_plain (h1 c hc)
    · decide
    · rcases ofInt_plain _ c hc with h | rfl
      · exact partChar_plain h
      · decide
    · decide
    · exact partChar_plain (h2 c hc)
    · decide
    · exact partChar_plain (base64_part (h3 c hc))

/-- C42: so is the legacy tag. -/
theorem C42_legacy_tag {f : Fingerprint} (hf : Built f) :
    IsFp f.legacyTag ∧ isFingerprint f.legacyTag = true ∧ Word f.legacyTag ∧ '\n' ∉ f.legacyTag := by
  obtain ⟨_, h2, h3⟩ := hf.parts
  have hp : fpPrefix <+: f.legacyTag := by rw [legacyTag_eq]; exact List.prefix_append _ _
  refine ⟨hp, List.isPrefixOf_iff_prefix.2 hp, word_of_chars ?_ ?_⟩
  · rw [legacyTag_eq]; simp
  · intro c hc
    rw [legacyTag_eq] at hc
    simp only [List.mem_append, List.mem_cons] at hc
    rcases hc with hc | hc | rfl | hc
    · revert c; decide
    · exact partChar_plain (h2 c hc)
    · decide
    · exact partChar_plain (base64_part (h3 c hc))

theorem mem_tags_flagLoop {line : Str} {c : Comment} {n : Nat} {ms : List Rx.Found} {t : Str} (h : t ∈ c.tags) :
    t ∈ (Comment.flagLoop line c n ms).tags := by
  have hp : ∀ (c : Comment) (s : Str), (c.pushText s).tags = c.tags := by
    intro c s; unfold Comment.pushText; simp only; split <;> rfl
  have hi : ∀ (l : List Str) (s : TagSet), t ∈ s → t ∈ l.foldl (fun ts f => ts.insert f) s := by
    intro l
    induction l with
    | nil => exact fun _ h => h
    | cons a l ih => intro s h; exact ih _ (Std.ExtTreeSet.mem_insert.2 (Or.inr h))
  induction ms generalizing c n with
  | nil =>
    unfold Comment.flagLoop
    split
    · rw [hp]; exact h
    · exact h
  | cons m ms ih =>
    unfold Comment.flagLoop
    apply ih
    apply hi
    split
    · rw [hp]; exact h
    · exact h

theorem mem_tags_parseLine {line : Str} {c : Comment} {t : Str} (h : t ∈ c.tags) : t ∈ (c.parseLine line).tags := by
  unfold Comment.parseLine
  split
  · exact h
  · exact mem_tags_flagLoop h

theorem mem_tags_foldl {ls : List Str} {c : Comment} {t : Str} (h : t ∈ c.tags) : t ∈ (ls.foldl Comment.parseLine c).tags := by
  induction ls generalizing c with
  | nil => exact h
  | cons l ls ih => exact ih (mem_tags_parseLine h)

theorem splitOn_append (sep : Char) {a : Str} (ha : sep ∉ a) (b : Str) : Str.splitOn sep (a ++ sep :: b) = a :: Str.splitOn sep b := by
  induction a with
  | nil => rw [List.nil_append, Str.splitOn]; simp
  | cons c a ih =>
    rw [List.mem_cons, not_or] at ha
    rw [List.cons_append, Str.splitOn, ih ha.2]
    simp [Ne.symm ha.1]

theorem splitOn_prefix (sep : Char) (as : List Str) (ha : ∀ a ∈ as, sep ∉ a) (l : Str) (ls : List Str) :
    ∃ rest, Str.splitOn sep (sepBy [sep] (as ++ l :: ls)) = as ++ rest := by
  induction as with
  | nil => exact ⟨_, rfl⟩
  | cons a as ih =>
    obtain ⟨rest, ih⟩ := ih (fun x hx => ha x (List.mem_cons_of_mem _ hx))
    refine ⟨rest, ?_⟩
    have : sepBy [sep] (a :: as ++ l :: ls) = a ++ sep :: sepBy [sep] (as ++ l :: ls) := by
      cases as <;> simp [sepBy]
    rw [this, splitOn_append sep (ha a List.mem_cons_self), ih]
    rfl

open Comment in
/-- C42: if all tags of a comment without text are words, every one of them is read back from the comment as it is written, whatever
its values are. -/
theorem C42_read_back (h : HashOrder) (c : Comment) (hl : c.lines = []) (hw : ∀ t ∈ c.tags, Word t ∧ '\n' ∉ t) {t : Str} (ht : t ∈ c.tags) :
    t ∈ (Comment.fromOptComment (c.intoOptComment h)).tags := by
  have hgw : ∀ ws ∈ groups c, ∀ w ∈ ws, Word w ∧ '\n' ∉ w := fun ws hws w hwm => hw w (mem_groups.1 ⟨ws, hws, hwm⟩)
  have hg : t ∈ (groups c).flatten := by
    obtain ⟨ws, hws, hm⟩ := mem_groups.2 ht
    exact List.mem_flatten.2 ⟨ws, hws, hm⟩
  have hnn : ∀ a ∈ tagText c, '\n' ∉ a := by
    rw [tagText_groups]
    intro a ha
    obtain ⟨ws, hws, rfl⟩ := List.mem_map.1 ha
    rw [List.mem_cons, not_or]
    exact ⟨by decide, no_newline_group fun w hwm => (hgw ws hws w hwm).2⟩
  have hlay : layout c = tagText c ++ c.valueTags.toList.map (fun e => Str.trim e.1 ++ ": ".toList ++ Str.trim e.2) := by
    rw [layout_eq, hl]
    generalize hx : tagText c = x
    cases x <;> simp
  have htt : tagText c ≠ [] := by
    intro he
    rw [tagText_nil_iff] at he
    rw [he] at ht
    exact absurd ht Std.ExtTreeSet.not_mem_empty
  have hne : layout c ≠ [] := by rw [hlay]; exact fun he => htt (List.append_eq_nil_iff.1 he).1
  have hsplit : ∃ rest, Str.splitOn '\n' (sepBy ['\n'] (layout c)) = tagText c ++ rest := by
    rw [hlay]
    cases hv : c.valueTags.toList.map (fun e => Str.trim e.1 ++ ": ".toList ++ Str.trim e.2) with
    | nil =>
      refine ⟨[], ?_⟩
      rw [List.append_nil, ← join_eq]
      exact splitOn_join htt hnn
    | cons l ls => exact splitOn_prefix '\n' _ hnn l ls
  obtain ⟨rest, hsplit⟩ := hsplit
  rw [intoOptComment_eq, if_neg hne]
  show t ∈ ((Str.splitOn '\n' _).foldl Comment.parseLine Comment.empty).tags
  rw [hsplit, List.foldl_append, tagText_groups, fold_tag_lines _ groups_ne hgw]
  exact mem_tags_foldl (mem_addTags.2 (Or.inr hg))

set_option maxRecDepth 100000 in
/-- A posting's comment whose value looks like more tags. -/
example (h : HashOrder) : "fp-x.1.y-z".toList ∈
    (Comment.fromOptComment (((Comment.empty.withTag "fp-x.1.y-z".toList).withValueTag "trn_type".toList
      "a\n:b: c".toList).intoOptComment h)).tags := by
  refine C42_read_back h _ rfl ?_ ?_
  · intro t ht
    have : t = "fp-x.1.y-z".toList := by
      rcases Std.ExtTreeSet.mem_insert.1 ht with h | h
      · exact (Std.LawfulEqOrd.compare_eq_iff_eq.1 h).symm
      · exact absurd h Std.ExtTreeSet.not_mem_empty
    subst this
    decide +kernel
  · exact Std.ExtTreeSet.mem_insert_self

/-! ## C40: what is hashed -/

/-- The two postings made from a record. -/
inductive Side where
  | self
  | peer
  deriving DecidableEq

/-- One of two. -/
def Side.pick {α : Type} (a b : α) : Side → α
  | .self => a
  | .peer => b

/-- The text added for a side. -/
def Side.text (s : Side) : Str := s.pick "self".toList "peer".toList

theorem side_inj {s t : Side} (h : s.text = t.text) : s = t := by
  cases s <;> cases t <;> first | rfl | (exfalso; revert h; decide +kernel)

theorem side_fits (s : Side) : FitsStr s.text := by cases s <;> decide +kernel

namespace NationwideCsv

theorem newBuilder_ok {name ns : Str} {version : Int} {b : FingerprintBuilder} (h : newBuilder name version ns = .ok b) :
    FingerprintBuilder.new name version ns = .ok b := by
  unfold newBuilder at h
  split at h
  · cases h; assumption
  · cases h

/-- All fields of a record fit into their types. -/
def RecordFive.Fits (r : RecordFive) : Prop :=
  FitsDate r.date ∧ FitsStr r.transactions ∧ FitsStr r.location ∧ FitsOpt FitsAmount r.paidOut ∧ FitsOpt FitsAmount r.paidIn

/-- All fields of a record fit into their types. -/
def RecordSix.Fits (r : RecordSix) : Prop :=
  FitsDate r.date ∧ FitsStr r.type_ ∧ FitsStr r.description ∧ FitsOpt FitsAmount r.paidOut ∧ FitsOpt FitsAmount r.paidIn ∧
    FitsAmount r.balance

instance (r : RecordFive) : Decidable r.Fits := by unfold RecordFive.Fits; infer_instance
instance (r : RecordSix) : Decidable r.Fits := by unfold RecordSix.Fits; infer_instance

/-- Records that fit and differ only in which of the two amounts is there. -/
example : let a : Amount := ⟨⟨false, 1050, 2⟩, gbp⟩
    (RecordFive.mk ⟨2020, 2, 29⟩ "SHOP".toList "London".toList (some a) none).Fits ∧
    (RecordFive.mk ⟨2020, 2, 29⟩ "SHOP".toList "London".toList none (some a)).Fits ∧
    (RecordSix.mk ⟨2020, 2, 29⟩ "Visa".toList "SHOP".toList (some a) none a).Fits ∧ FitsI32 0 ∧ FitsI32 (-1) := by
  decide +kernel

/-- What is hashed for a record of five columns that is number `k` of its date. -/
def RecordFive.text (r : RecordFive) (k : Int) (s : Side) : Bytes :=
  (Enc.date r.date ++ (Enc.signed 4 k ++ (Enc.str r.transactions ++ (Enc.str r.location ++
    (Enc.option Enc.amount r.paidOut ++ (Enc.option Enc.amount r.paidIn ++ (Enc.str s.text ++ [])))))))

/-- C40, five columns: the values of the two fingerprints are hashes of a text that does not depend on the hash function and that
determines the record, its number and which of the two postings it is. -/
theorem C40_nationwide_five :
    (∀ L r ns k fp, RecordFive.fingerprintV1 L r ns k = .ok fp → ∀ s : Side,
      (s.pick fp.self fp.peer).value = Base64.encode (L.sha1 (RecordFive.text r k s))) ∧
    ∀ r r' k k' s s', r.Fits → r'.Fits → FitsI32 k → FitsI32 k' → RecordFive.text r k s = RecordFive.text r' k' s' → r = r' ∧ k = k' ∧ s = s' := by
  refine ⟨?_, ?_⟩
  · intro L r ns k fp h s
    unfold RecordFive.fingerprintV1 at h
    cases hb : newBuilder "nwcsv5".toList 1 ns with
    | error e => rw [hb] at h; cases h
    | ok b =>
      rw [hb] at h
      obtain rfl := (new_ok (newBuilder_ok hb)).1
      cases h
      cases s <;> simp only [Side.pick, Side.text, selfAndPeerFingerprints, FingerprintBuilder.build, Accumulator.intoBase64,
        RecordFive.fill, RecordFive.text, FingerprintBuilder.with_, List.append_assoc, List.nil_append, List.append_nil]
  · intro r r' k k' s s' hr hr' hk hk' h
    obtain ⟨h1, h⟩ := unamb_date _ _ _ _ hr.1 hr'.1 h
    obtain ⟨h2, h⟩ := unamb_i32 _ _ _ _ hk hk' h
    obtain ⟨h3, h⟩ := unamb_str _ _ _ _ hr.2.1 hr'.2.1 h
    obtain ⟨h4, h⟩ := unamb_str _ _ _ _ hr.2.2.1 hr'.2.2.1 h
    obtain ⟨h5, h⟩ := unamb_option unamb_amount _ _ _ _ hr.2.2.2.1 hr'.2.2.2.1 h
    obtain ⟨h6, h⟩ := unamb_option unamb_amount _ _ _ _ hr.2.2.2.2 hr'.2.2.2.2 h
    obtain ⟨h7, _⟩ := unamb_str _ _ _ _ (side_fits s) (side_fits s') h
    refine ⟨?_, h2, side_inj h7⟩
    cases r; cases r'; simp_all

/-- What is hashed for a record of six columns. -/
def RecordSix.text (r : RecordSix) (k : Int) (s : Side) : Bytes :=
  (Enc.str r.type_ ++ (Enc.date r.date ++ (Enc.signed 4 k ++ (Enc.str r.description ++
    (Enc.option Enc.amount r.paidOut ++ (Enc.option Enc.amount r.paidIn ++ (Enc.amount r.balance ++ (Enc.str s.text ++ []))))))))

/-- C40, six columns: the same. -/
theorem C40_nationwide_six :
    (∀ L r ns k fp, RecordSix.fingerprintV1 L r ns k = .ok fp → ∀ s : Side,
      (s.pick fp.self fp.peer).value = Base64.encode (L.sha1 (RecordSix.text r k s))) ∧
    ∀ r r' k k' s s', r.Fits → r'.Fits → FitsI32 k → FitsI32 k' → RecordSix.text r k s = RecordSix.text r' k' s' → r = r' ∧ k = k' ∧ s = s' := by
  refine ⟨?_, ?_⟩
  · intro L r ns k fp h s
    unfold RecordSix.fingerprintV1 at h
    cases hb : newBuilder "nwcsv6".toList 1 ns with
    | error e => rw [hb] at h; cases h
    | ok b =>
      rw [hb] at h
      obtain rfl := (new_ok (newBuilder_ok hb)).1
      cases h
      cases s <;> simp only [Side.pick, Side.text, selfAndPeerFingerprints, FingerprintBuilder.build, Accumulator.intoBase64,
        RecordSix.fill, RecordSix.text, FingerprintBuilder.with_, List.append_assoc, List.nil_append, List.append_nil]
  · intro r r' k k' s s' hr hr' hk hk' h
    obtain ⟨h0, h⟩ := unamb_str _ _ _ _ hr.2.1 hr'.2.1 h
    obtain ⟨h1, h⟩ := unamb_date _ _ _ _ hr.1 hr'.1 h
    obtain ⟨h2, h⟩ := unamb_i32 _ _ _ _ hk hk' h
    obtain ⟨h4, h⟩ := unamb_str _ _ _ _ hr.2.2.1 hr'.2.2.1 h
    obtain ⟨h5, h⟩ := unamb_option unamb_amount _ _ _ _ hr.2.2.2.1 hr'.2.2.2.1 h
    obtain ⟨h6, h⟩ := unamb_option unamb_amount _ _ _ _ hr.2.2.2.2.1 hr'.2.2.2.2.1 h
    obtain ⟨h8, h⟩ := unamb_amount _ _ _ _ hr.2.2.2.2.2 hr'.2.2.2.2.2 h
    obtain ⟨h7, _⟩ := unamb_str _ _ _ _ (side_fits s) (side_fits s') h
    refine ⟨?_, h2, side_inj h7⟩
    cases r; cases r'; simp_all

theorem negate_inj {a b : Amount} (h : negateAmount a = negateAmount b) : a = b := by
  cases a with | mk q c => cases b with | mk q' c' =>
  unfold negateAmount Decimal.negate at h
  cases q; cases q'
  simp_all

theorem negate_fits {a : Amount} (h : FitsAmount a) : FitsAmount (negateAmount a) := h

/-- The half of a transaction on a side. -/
theorem half_inj {a a' : Amount} {s s' : Side}
    (h1 : (s.pick (selfAndPeerAccountAmount a Accounts.assetsUnknown).self (selfAndPeerAccountAmount a Accounts.assetsUnknown).peer) =
      (s'.pick (selfAndPeerAccountAmount a' Accounts.assetsUnknown).self (selfAndPeerAccountAmount a' Accounts.assetsUnknown).peer)) :
    s = s' ∧ a = a' := by
  have hacc := congrArg AccountAmount.account h1
  have hamt := congrArg AccountAmount.amount h1
  cases s <;> cases s' <;> simp only [Side.pick, selfAndPeerAccountAmount] at hacc hamt
  · exact ⟨rfl, hamt⟩
  · exfalso; revert hacc; split <;> decide +kernel
  · exfalso; revert hacc; split <;> decide +kernel
  · exact ⟨rfl, negate_inj hamt⟩

theorem half_fits {a : Amount} (h : FitsAmount a) (s : Side) :
    FitsStr (s.pick (selfAndPeerAccountAmount a Accounts.assetsUnknown).self (selfAndPeerAccountAmount a Accounts.assetsUnknown).peer).account ∧
    FitsAmount (s.pick (selfAndPeerAccountAmount a Accounts.assetsUnknown).self (selfAndPeerAccountAmount a Accounts.assetsUnknown).peer).amount := by
  cases s
  · exact ⟨show FitsStr Accounts.assetsUnknown by decide +kernel, h⟩
  · refine ⟨?_, h⟩
    simp only [Side.pick, selfAndPeerAccountAmount]
    split <;> decide +kernel

/-- What is hashed for the legacy fingerprint of a record of six columns. -/
def RecordSix.legacyText (r : RecordSix) (k : Int) (amt : Amount) (s : Side) : Bytes :=
  (Enc.str r.type_ ++ (Enc.date r.date ++ (Enc.str [] ++ (Enc.amount r.balance ++ (Enc.signed 4 k ++
    (Enc.str (s.pick (selfAndPeerAccountAmount amt Accounts.assetsUnknown).self (selfAndPeerAccountAmount amt Accounts.assetsUnknown).peer).account ++
    (Enc.amount (s.pick (selfAndPeerAccountAmount amt Accounts.assetsUnknown).self (selfAndPeerAccountAmount amt Accounts.assetsUnknown).peer).amount
    ++ [])))))))

/-- C40, six columns, legacy fingerprints: the text determines type, date, balance, number and signed amount, and which of the two
postings it is. The description is not part of it. -/
theorem C40_nationwide_six_legacy :
    (∀ L r ns k amt fp, RecordSix.fingerprintLegacy L r ns k (selfAndPeerAccountAmount amt Accounts.assetsUnknown) = .ok fp →
      ∀ s : Side, (s.pick fp.self fp.peer).value = Base64.encode (L.sha1 (RecordSix.legacyText r k amt s))) ∧
    ∀ r r' k k' amt amt' s s', r.Fits → r'.Fits → FitsI32 k → FitsI32 k' → FitsAmount amt → FitsAmount amt' →
      RecordSix.legacyText r k amt s = RecordSix.legacyText r' k' amt' s' →
      r.type_ = r'.type_ ∧ r.date = r'.date ∧ r.balance = r'.balance ∧ k = k' ∧ amt = amt' ∧ s = s' := by
  refine ⟨?_, ?_⟩
  · intro L r ns k amt fp h s
    unfold RecordSix.fingerprintLegacy at h
    cases hb : newBuilder [] 0 ns with
    | error e => rw [hb] at h; cases h
    | ok b =>
      rw [hb] at h
      obtain rfl := (new_ok (newBuilder_ok hb)).1
      cases h
      cases s <;> simp only [Side.pick, fillHalf, FingerprintBuilder.build, Accumulator.intoBase64,
        RecordSix.fillLegacy, RecordSix.legacyText, FingerprintBuilder.with_, List.append_assoc, List.nil_append, List.append_nil]
  · intro r r' k k' amt amt' s s' hr hr' hk hk' ha ha' h
    obtain ⟨h0, h⟩ := unamb_str _ _ _ _ hr.2.1 hr'.2.1 h
    obtain ⟨h1, h⟩ := unamb_date _ _ _ _ hr.1 hr'.1 h
    obtain ⟨_, h⟩ := unamb_str _ _ _ _ (by decide) (by decide) h
    obtain ⟨h8, h⟩ := unamb_amount _ _ _ _ hr.2.2.2.2.2 hr'.2.2.2.2.2 h
    obtain ⟨h2, h⟩ := unamb_i32 _ _ _ _ hk hk' h
    obtain ⟨h3, h⟩ := unamb_str _ _ _ _ (half_fits ha s).1 (half_fits ha' s').1 h
    obtain ⟨h4, _⟩ := unamb_amount _ _ _ _ (half_fits ha s).2 (half_fits ha' s').2 h
    obtain ⟨hs, hamt⟩ := half_inj (a := amt) (a' := amt') (s := s) (s' := s') (by
      rw [AccountAmount.mk.injEq]; exact ⟨h3, h4⟩)
    exact ⟨h0, h1, h8, h2, hamt, hs⟩

end NationwideCsv

namespace PaypalCsv
open NationwideCsv

/-- All fields of a record fit into their types. -/
def RawRecord.Fits (v : RawRecord) : Prop :=
  FitsDate v.date ∧ (v.time.hour < 2 ^ 32 ∧ v.time.minute < 2 ^ 32 ∧ v.time.second < 2 ^ 32 ∧ v.time.nano < 2 ^ 32) ∧
    FitsStr v.timeZone ∧ FitsOpt FitsStr v.name ∧ FitsStr v.type_ ∧ FitsStr v.currency ∧ FitsDecimal v.amount ∧ FitsDecimal v.balance

instance (v : RawRecord) : Decidable v.Fits := by unfold RawRecord.Fits; infer_instance

example : (RawRecord.mk ⟨2020, 2, 29⟩ ⟨23, 59, 59, 0⟩ "GMT".toList (some "Shop".toList) "Payment".toList .cleared "GBP".toList ⟨true, 1050, 2⟩
    none ⟨false, 0, 2⟩).Fits := by decide +kernel

/-- What is hashed for record number `i` of a PayPal transaction. -/
def RawRecord.text (v : RawRecord) (i : Nat) (s : Side) : Bytes :=
  (Enc.date v.date ++ (Enc.time v.time ++ (Enc.str v.timeZone ++ (Enc.option Enc.str v.name ++ (Enc.str v.type_ ++
    (Enc.amount ⟨v.amount, ⟨v.currency, .left⟩⟩ ++ (Enc.amount ⟨v.balance, ⟨v.currency, .left⟩⟩ ++ (Enc.usize i ++
      (Enc.str s.text ++ [])))))))))

/-- C40, PayPal: the text that is hashed determines date, time, time zone, name, type, currency, amount and balance, the number of
the record in its transaction, and which of the two postings it is. Status and receipt are not part of it. -/
theorem C40_paypal :
    (∀ sha1 v tz ns r i, Record.ofRaw v tz ns = .ok r → ∀ s : Side,
      (s.pick (selfAndPeerFingerprints sha1 (r.partialFp.with_ (Enc.usize i))).self
        (selfAndPeerFingerprints sha1 (r.partialFp.with_ (Enc.usize i))).peer).value = Base64.encode (sha1 (RawRecord.text v i s))) ∧
    ∀ v v' i i' s s', v.Fits → v'.Fits → i < 2 ^ 64 → i' < 2 ^ 64 → RawRecord.text v i s = RawRecord.text v' i' s' →
      v.date = v'.date ∧ v.time = v'.time ∧ v.timeZone = v'.timeZone ∧ v.name = v'.name ∧ v.type_ = v'.type_ ∧
      v.currency = v'.currency ∧ v.amount = v'.amount ∧ v.balance = v'.balance ∧ i = i' ∧ s = s' := by
  refine ⟨?_, ?_⟩
  · intro sha1 v tz ns r i h s
    unfold Record.ofRaw at h
    cases hb : newBuilder "ppcsv".toList 1 ns with
    | error e => simp only [hb] at h; cases h
    | ok b =>
      simp only [hb] at h
      obtain rfl := (new_ok (newBuilder_ok hb)).1
      change (match TzAbbr.abbrToTz tz v.timeZone with | none => _ | some offset => _) = _ at h
      split at h
      · cases h
      · cases h
        cases s <;> simp only [Side.pick, Side.text, selfAndPeerFingerprints, FingerprintBuilder.build, Accumulator.intoBase64,
          RawRecord.fill, RawRecord.text, FingerprintBuilder.with_, List.append_assoc, List.nil_append, List.append_nil]
  · intro v v' i i' s s' hv hv' hi hi' h
    obtain ⟨f1, f2, f3, f4, f5, f6, f7, f8⟩ := hv
    obtain ⟨g1, g2, g3, g4, g5, g6, g7, g8⟩ := hv'
    obtain ⟨h1, h⟩ := unamb_date _ _ _ _ f1 g1 h
    obtain ⟨h2, h⟩ := unamb_time _ _ _ _ f2 g2 h
    obtain ⟨h3, h⟩ := unamb_str _ _ _ _ f3 g3 h
    obtain ⟨h4, h⟩ := unamb_option unamb_str _ _ _ _ f4 g4 h
    obtain ⟨h5, h⟩ := unamb_str _ _ _ _ f5 g5 h
    obtain ⟨h6, h⟩ := unamb_amount _ _ _ _ ⟨f7, f6⟩ ⟨g7, g6⟩ h
    obtain ⟨h7, h⟩ := unamb_amount _ _ _ _ ⟨f8, f6⟩ ⟨g8, g6⟩ h
    obtain ⟨h8, h⟩ := unamb_usize _ _ _ _ hi hi' h
    obtain ⟨h9, _⟩ := unamb_str _ _ _ _ (side_fits s) (side_fits s') h
    simp only [Amount.mk.injEq, Commodity.mk.injEq] at h6 h7
    exact ⟨h1, h2, h3, h4, h5, h6.2.1, h6.1, h7.1, h8, side_inj h9⟩

end PaypalCsv

namespace NationwidePdf
open NationwideCsv

/-- All fields fit into their types. -/
def TransactionBuilder.Fits (t : TransactionBuilder) : Prop :=
  FitsDate t.date ∧ FitsI32 t.dateCounter ∧ FitsAmount t.amount ∧ FitsStr t.description

instance (t : TransactionBuilder) : Decidable t.Fits := by unfold TransactionBuilder.Fits; infer_instance

example : (TransactionBuilder.mk ⟨2020, 2, 29⟩ 3 ⟨⟨false, 1050, 2⟩, gbp⟩ .payment none "SHOP London".toList none).Fits := by decide +kernel

/-- The amount with its sign for the account. -/
def TransactionBuilder.signed (t : TransactionBuilder) : Amount :=
  match t.type_ with | .payment => negateAmount t.amount | .receipt => t.amount

theorem signed_fits {t : TransactionBuilder} (h : t.Fits) : FitsAmount t.signed := by
  unfold TransactionBuilder.signed
  split <;> exact h.2.2.1

theorem halves_eq (t : TransactionBuilder) : t.halves = selfAndPeerAccountAmount t.signed Accounts.assetsUnknown := rfl

/-- What is hashed for a transaction of a PDF statement. -/
def TransactionBuilder.text (t : TransactionBuilder) (s : Side) : Bytes :=
  (Enc.date t.date ++ (Enc.signed 4 t.dateCounter ++ (Enc.str t.description ++
    (Enc.str (s.pick t.halves.self t.halves.peer).account ++ (Enc.amount (s.pick t.halves.self t.halves.peer).amount ++ [])))))

/-- C40, PDF statements: the text determines date, number, description and signed amount, and which of the two postings it is. For
amounts that are not negative, as in the code, it thus determines the amount and whether it is a payment or a receipt. -/
theorem C40_nationwide_pdf :
    (∀ sha1 t ns b, newBuilder "nwpdf".toList 1 ns = .ok b → ∀ s : Side,
      ((fillHalf (s.pick t.halves.self t.halves.peer) (t.fill b)).build sha1).value = Base64.encode (sha1 (TransactionBuilder.text t s))) ∧
    ∀ t t' s s', t.Fits → t'.Fits → t.amount.quantity.neg = false → t'.amount.quantity.neg = false → TransactionBuilder.text t s = TransactionBuilder.text t' s' →
      t.date = t'.date ∧ t.dateCounter = t'.dateCounter ∧ t.description = t'.description ∧ t.amount = t'.amount ∧ t.type_ = t'.type_ ∧
      s = s' := by
  refine ⟨?_, ?_⟩
  · intro sha1 t ns b hb s
    obtain rfl := (new_ok (newBuilder_ok hb)).1
    simp only [fillHalf, FingerprintBuilder.build, Accumulator.intoBase64,
        TransactionBuilder.fill, TransactionBuilder.text, FingerprintBuilder.with_, List.append_assoc, List.nil_append, List.append_nil]
  · intro t t' s s' ht ht' hn hn' h
    obtain ⟨h1, h⟩ := unamb_date _ _ _ _ ht.1 ht'.1 h
    obtain ⟨h2, h⟩ := unamb_i32 _ _ _ _ ht.2.1 ht'.2.1 h
    obtain ⟨h3, h⟩ := unamb_str _ _ _ _ ht.2.2.2 ht'.2.2.2 h
    simp only [halves_eq] at h
    obtain ⟨h4, h⟩ := unamb_str _ _ _ _ (half_fits (signed_fits ht) s).1 (half_fits (signed_fits ht') s').1 h
    obtain ⟨h5, _⟩ := unamb_amount _ _ _ _ (half_fits (signed_fits ht) s).2 (half_fits (signed_fits ht') s').2 h
    obtain ⟨hs, hamt⟩ := half_inj (a := t.signed) (a' := t'.signed) (s := s) (s' := s') (by
      rw [AccountAmount.mk.injEq]; exact ⟨h4, h5⟩)
    have hk : t.amount = t'.amount ∧ t.type_ = t'.type_ := by
      unfold TransactionBuilder.signed at hamt
      cases hx : t.type_ <;> cases hy : t'.type_ <;> simp only [hx, hy] at hamt
      · exact ⟨negate_inj hamt, rfl⟩
      · have := congrArg (fun a => a.quantity.neg) hamt
        simp only [negateAmount, Decimal.negate, hn, hn'] at this
        cases this
      · have := congrArg (fun a => a.quantity.neg) hamt
        simp only [negateAmount, Decimal.negate, hn, hn'] at this
        cases this
      · exact ⟨hamt, rfl⟩
    exact ⟨h1, h2, h3, hk.1, hk.2, hs⟩

end NationwidePdf

end Verif
