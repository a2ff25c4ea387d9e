import Verif.Spec.Bytes
import Verif.Props.PaypalCsv
import Verif.Props.ImportCmd
import Verif.Props.FpGen

/-!
# C81: the exact text of fingerprints
-/

namespace Verif
open Spec

theorem bigEndian_succ (k n : Nat) : bigEndian (k + 1) n = bigEndian k (n / 256) ++ [UInt8.ofNat n] := by
  unfold bigEndian
  rw [List.range_succ, List.map_append]
  congr 1
  · apply List.map_congr_left
    intro i hi
    rw [List.mem_range] at hi
    rw [Nat.div_div_eq_div_mul, ← pow_succ']
    congr 3
    omega
  · simp

theorem be_eq (k n : Nat) : be k n = bigEndian k n := by
  induction k generalizing n with
  | zero => rfl
  | succ k ih => rw [bigEndian_succ, be, ih]

theorem be_reverse (k n : Nat) : (be k n).reverse = littleEndian k n := by
  rw [be_eq]
  unfold bigEndian littleEndian
  rw [← List.map_reverse, List.range_eq_range', List.reverse_range', List.map_map]
  rw [← List.range_eq_range']
  apply List.map_congr_left
  intro i hi
  rw [List.mem_range] at hi
  simp only [Function.comp]
  congr 3
  omega

theorem utf8_eq (s : Str) : encodeUtf8 s = utf8 s := by
  unfold utf8
  rw [String.toUTF8_eq_toByteArray, String.toByteArray_ofList, ← encodeUtf8_eq]
  simp

theorem byteLen_eq (s : Str) : s.byteLen = (utf8 s).length := by rw [← utf8_eq, encodeUtf8_length]

theorem str_bytes (s : Str) : Enc.str s = textBytes s := by
  unfold Enc.str Enc.usize Enc.unsigned Enc.raw textBytes
  rw [be_eq, byteLen_eq, utf8_eq]

theorem signed_bytes (v : Int) : Enc.signed 4 v = i32Bytes v := by
  unfold Enc.signed i32Bytes
  rw [be_eq, BitVec.toNat_ofInt]

theorem date_bytes (d : Date) : Enc.date d = dateBytes d := by
  unfold Enc.date dateBytes Enc.usize Enc.unsigned
  rw [signed_bytes, be_eq, be_eq, be_eq]

theorem time_bytes (t : Time) : Enc.time t = timeBytes t := by
  unfold Enc.time timeBytes Enc.usize Enc.unsigned
  simp only [be_eq]

theorem decimal_bytes (d : Decimal) (h : d.scale < 256) : d.serialize = decimalBytes d := by
  unfold Decimal.serialize decimalBytes
  rw [be_reverse, be_reverse]
  congr 1
  have e : littleEndian 4 (d.scale * 0x10000 + if d.neg then 0x80000000 else 0) =
      [UInt8.ofNat (d.scale * 0x10000 + if d.neg then 0x80000000 else 0), UInt8.ofNat ((d.scale * 0x10000 + if d.neg then 0x80000000 else 0) / 256),
       UInt8.ofNat ((d.scale * 0x10000 + if d.neg then 0x80000000 else 0) / 65536),
       UInt8.ofNat ((d.scale * 0x10000 + if d.neg then 0x80000000 else 0) / 16777216)] := by
    simp [littleEndian, List.range_succ]
  rw [e]
  have hb : (if d.neg then 0x80000000 else 0) = (if d.neg then 128 else 0) * 16777216 := by cases d.neg <;> rfl
  have hc : (if d.neg then (128 : UInt8) else 0) = UInt8.ofNat (if d.neg then 128 else 0) := by cases d.neg <;> rfl
  rw [hb, hc]
  have h8 : (if d.neg then 128 else 0) < 256 := by cases d.neg <;> decide
  generalize (if d.neg then 128 else 0) = n at h8
  have h0 : (0 : UInt8) = UInt8.ofNat 0 := rfl
  rw [h0]
  refine congr (congrArg List.cons ?_) (congr (congrArg List.cons ?_) (congr (congrArg List.cons ?_) (congr (congrArg List.cons ?_) rfl))) <;>
    (apply UInt8.toNat_inj.1; rw [UInt8.toNat_ofNat', UInt8.toNat_ofNat']; omega)

theorem amount_bytes (a : Amount) (h : a.quantity.scale < 256) : Enc.amount a = amountBytes a := by
  unfold Enc.amount amountBytes Enc.usize Enc.unsigned Enc.raw
  rw [be_eq, byteLen_eq, decimal_bytes _ h, str_bytes]
  cases a.commodity.position <;> rfl

theorem option_bytes {α : Type} {f g : α → Bytes} (o : Option α) (h : ∀ a, o = some a → f a = g a) : Enc.option f o = optionBytes g o := by
  cases o with
  | none => rfl
  | some a =>
    show Enc.unsigned 1 1 ++ f a = 1 :: g a
    rw [h a rfl]
    rfl

theorem char_eq (n : Nat) (h : n < 64) : Base64.char n = sextetChar n := by
  have : ∀ n : Fin 64, Base64.char n = sextetChar n := by decide +kernel
  exact this ⟨n, h⟩

theorem bitAt_cons (a : UInt8) (x : Bytes) (j : Nat) : bitAt (a :: x) (j + 8) = bitAt x j := by
  unfold bitAt
  rw [Nat.add_div_right _ (by decide), Nat.add_mod_right, List.getD_cons_succ]

theorem bitAt_head (a : UInt8) (x : Bytes) (j : Nat) (h : j < 8) : bitAt (a :: x) j = a.toNat / 2 ^ (7 - j) % 2 := by
  unfold bitAt
  rw [Nat.div_eq_of_lt h, Nat.mod_eq_of_lt h]
  rfl

theorem bitAt_nil (j : Nat) : bitAt [] j = 0 := by
  unfold bitAt
  rw [List.getD_nil]
  simp

/-- Six bits from bit `j` on. -/
def sextet (x : Bytes) (j : Nat) : Nat := ((List.range 6).map fun k => bitAt x (j + k) * 2 ^ (5 - k)).sum

theorem sextet_eq (x : Bytes) (j : Nat) : sextet x j = bitAt x j * 32 + bitAt x (j + 1) * 16 + bitAt x (j + 2) * 8 + bitAt x (j + 3) * 4 +
    bitAt x (j + 4) * 2 + bitAt x (j + 5) := by
  simp [sextet, List.range_succ, Nat.add_assoc]

theorem base64_sextets (x : Bytes) : base64 x = (List.range ((8 * x.length + 5) / 6)).map fun i => sextetChar (sextet x (6 * i)) := rfl

theorem sextet_skip (a b c : UInt8) (x : Bytes) (j : Nat) : sextet (a :: b :: c :: x) (j + 24) = sextet x j := by
  unfold sextet
  congr 1
  apply List.map_congr_left
  intro k _
  have : j + 24 + k = j + k + 8 + 8 + 8 := by omega
  rw [this, bitAt_cons, bitAt_cons, bitAt_cons]

theorem sextet0 (a : UInt8) (x : Bytes) : sextet (a :: x) 0 = a.toNat / 4 := by
  have := a.toNat_lt
  rw [sextet_eq]
  repeat rw [bitAt_head _ _ _ (by decide)]
  norm_num
  omega

theorem bitAt_second (a b : UInt8) (x : Bytes) (j : Nat) (h : j < 8) : bitAt (a :: b :: x) (j + 8) = b.toNat / 2 ^ (7 - j) % 2 := by
  rw [bitAt_cons, bitAt_head _ _ _ h]

theorem bitAt_third (a b c : UInt8) (x : Bytes) (j : Nat) (h : j < 8) : bitAt (a :: b :: c :: x) (j + 16) = c.toNat / 2 ^ (7 - j) % 2 := by
  have : j + 16 = j + 8 + 8 := by omega
  rw [this, bitAt_cons, bitAt_second _ _ _ _ h]

theorem sextet1 (a b : UInt8) (x : Bytes) : sextet (a :: b :: x) 6 = a.toNat % 4 * 16 + b.toNat / 16 := by
  have := a.toNat_lt
  have := b.toNat_lt
  rw [sextet_eq]
  rw [bitAt_head _ _ 6 (by decide), bitAt_head _ _ 7 (by decide), bitAt_second _ _ _ 0 (by decide), bitAt_second _ _ _ 1 (by decide),
    bitAt_second _ _ _ 2 (by decide), bitAt_second _ _ _ 3 (by decide)]
  norm_num
  omega

theorem sextet2 (a b c : UInt8) (x : Bytes) : sextet (a :: b :: c :: x) 12 = b.toNat % 16 * 4 + c.toNat / 64 := by
  have := b.toNat_lt
  have := c.toNat_lt
  rw [sextet_eq]
  rw [bitAt_second _ _ _ 4 (by decide), bitAt_second _ _ _ 5 (by decide), bitAt_second _ _ _ 6 (by decide), bitAt_second _ _ _ 7 (by decide),
    bitAt_third _ _ _ _ 0 (by decide), bitAt_third _ _ _ _ 1 (by decide)]
  norm_num
  omega

theorem sextet3 (a b c : UInt8) (x : Bytes) : sextet (a :: b :: c :: x) 18 = c.toNat % 64 := by
  have := c.toNat_lt
  rw [sextet_eq]
  rw [bitAt_third _ _ _ _ 2 (by decide), bitAt_third _ _ _ _ 3 (by decide), bitAt_third _ _ _ _ 4 (by decide), bitAt_third _ _ _ _ 5 (by decide),
    bitAt_third _ _ _ _ 6 (by decide), bitAt_third _ _ _ _ 7 (by decide)]
  norm_num
  omega

theorem bitAt_pad (x : Bytes) (j : Nat) : bitAt (x ++ [0]) j = bitAt x j := by
  unfold bitAt
  congr 3
  rw [List.getD_eq_getElem?_getD, List.getD_eq_getElem?_getD, List.getElem?_append]
  split
  · rfl
  · rename_i h
    rw [List.getElem?_eq_none (Nat.le_of_not_lt h)]
    cases j / 8 - x.length <;> rfl

theorem sextet_pad (x : Bytes) (j : Nat) : sextet (x ++ [0]) j = sextet x j := by
  unfold sextet
  simp only [bitAt_pad]

/-- C81: the hash is written in base64. -/
theorem C81_base64 (x : Bytes) : Base64.encode x = base64 x := by
  fun_induction Base64.encode x with
  | case1 => rfl
  | case2 a =>
    have := a.toNat_lt
    have h0 := sextet0 a []
    have h1 := sextet_pad [a] 6
    rw [List.singleton_append, sextet1] at h1
    rw [base64_sextets, show (8 * [a].length + 5) / 6 = 2 by simp]
    simp only [List.range_succ, List.range_zero, List.nil_append, List.map_cons, List.map_nil, List.cons_append, Nat.mul_zero,
      Nat.mul_one]
    rw [h0, ← h1, char_eq _ (by omega), char_eq _ (by omega)]
    rfl
  | case3 a b =>
    have := a.toNat_lt
    have := b.toNat_lt
    have h0 := sextet0 a [b]
    have h1 := sextet1 a b []
    have h2 := sextet_pad [a, b] 12
    rw [show [a, b] ++ [(0 : UInt8)] = [a, b, 0] from rfl, sextet2] at h2
    rw [base64_sextets, show (8 * [a, b].length + 5) / 6 = 3 by simp]
    simp only [List.range_succ, List.range_zero, List.nil_append, List.map_cons, List.map_nil, List.cons_append, Nat.mul_zero,
      Nat.mul_one, show 6 * 2 = 12 from rfl]
    rw [h0, h1, ← h2, char_eq _ (by omega), char_eq _ (by omega), char_eq _ (by omega)]
    rfl
  | case4 a b c rest ih =>
    have := a.toNat_lt
    have := b.toNat_lt
    have := c.toNat_lt
    rw [ih, base64_sextets, base64_sextets]
    have e : (8 * (a :: b :: c :: rest).length + 5) / 6 = (8 * rest.length + 5) / 6 + 1 + 1 + 1 + 1 := by
      simp only [List.length_cons]
      omega
    rw [e, List.range_succ_eq_map, List.range_succ_eq_map, List.range_succ_eq_map, List.range_succ_eq_map]
    simp only [List.map_cons, List.map_map, Nat.mul_zero]
    rw [sextet0, char_eq _ (by omega), char_eq _ (by omega), char_eq _ (by omega), char_eq _ (by omega)]
    rw [show 6 * Nat.succ 0 = 6 from rfl, sextet1, show 6 * Nat.succ (Nat.succ 0) = 12 from rfl, sextet2,
      show 6 * Nat.succ (Nat.succ (Nat.succ 0)) = 18 from rfl, sextet3]
    refine congrArg _ (congrArg _ (congrArg _ (congrArg _ (List.map_congr_left fun i _ => ?_))))
    simp only [Function.comp]
    rw [show 6 * (i.succ.succ.succ.succ) = 6 * i + 24 by omega, sextet_skip]

/-- C81: what the values of a record are hashed as. -/
theorem C81_values :
    (∀ s, Enc.str s = textBytes s) ∧ (∀ v, Enc.signed 4 v = i32Bytes v) ∧ (∀ n, Enc.usize n = bigEndian 8 n) ∧
    (∀ d, Enc.date d = dateBytes d) ∧ (∀ t, Enc.time t = timeBytes t) ∧ (∀ a, FitsAmount a → Enc.amount a = amountBytes a) ∧
    (∀ o, Enc.option Enc.str o = optionBytes textBytes o) ∧
    (∀ o, FitsOpt FitsAmount o → Enc.option Enc.amount o = optionBytes amountBytes o) := by
  have ha : ∀ a, FitsAmount a → Enc.amount a = amountBytes a := fun a h => amount_bytes a (by have := h.1.2; omega)
  exact ⟨str_bytes, signed_bytes, fun n => be_eq 8 n, date_bytes, time_bytes, ha, fun o => option_bytes o fun a _ => str_bytes a,
    fun o h => option_bytes o fun a e => ha a (h a e)⟩

theorem tag_fpTag (f : Fingerprint) {name : String} {hash : Bytes} (hn : f.algorithmName = name.toList) (hv : f.value = base64 hash) :
    f.tag = fpTag name f.algorithmVersion f.userNamespace hash := by
  rw [(C41_text f).1, hn, hv]
  simp [fpTag, toString]

theorem legacyTag_oldFpTag (f : Fingerprint) {hash : Bytes} (hv : f.value = base64 hash) :
    f.legacyTag = oldFpTag f.userNamespace hash := by
  rw [(C41_text f).2, hv]
  simp [oldFpTag, toString]

namespace NationwideCsv

/-- C81, Nationwide CSV files of five columns: the tags of the two postings of row `r`, which is number `k` (from 0) of its date. -/
theorem C81_five (L : ImportLib) (r : RecordFive) (ns : Str) (k : Int) (h : r.Fits) (s : Side) :
    (s.pick (fiveFp L r ns k).self (fiveFp L r ns k).peer).tag =
      fpTag "nwcsv5" 1 ns (L.sha1 (dateBytes r.date ++ i32Bytes k ++ textBytes r.transactions ++ textBytes r.location ++
        optionBytes amountBytes r.paidOut ++ optionBytes amountBytes r.paidIn ++ textBytes s.text)) := by
  obtain ⟨e1, e2, e3, e4, e5, e6, e7, e8⟩ := C81_values
  obtain ⟨_, _, _, h1, h2⟩ := h
  rw [← e4, ← e2, ← e1, ← e1, ← e1, ← e8 _ h1, ← e8 _ h2]
  cases s <;> exact tag_fpTag _ rfl ((C81_base64 _).symm ▸ rfl)

/-- C81, Nationwide CSV files of six columns. -/
theorem C81_six (L : ImportLib) (r : RecordSix) (ns : Str) (k : Int) (h : r.Fits) (s : Side) :
    (s.pick (sixFp L r ns k).self (sixFp L r ns k).peer).tag =
      fpTag "nwcsv6" 1 ns (L.sha1 (textBytes r.type_ ++ dateBytes r.date ++ i32Bytes k ++ textBytes r.description ++
        optionBytes amountBytes r.paidOut ++ optionBytes amountBytes r.paidIn ++ amountBytes r.balance ++ textBytes s.text)) := by
  obtain ⟨e1, e2, e3, e4, e5, e6, e7, e8⟩ := C81_values
  obtain ⟨_, _, _, h1, h2, h3⟩ := h
  rw [← e4, ← e2, ← e1, ← e1, ← e1, ← e8 _ h1, ← e8 _ h2, ← e6 _ h3]
  cases s <;> exact tag_fpTag _ rfl ((C81_base64 _).symm ▸ rfl)

/-- C81, Nationwide CSV files of six columns: the tags of fingerprints in the old format, for a row with the amount `amt`. -/
theorem C81_six_legacy (L : ImportLib) (r : RecordSix) (ns : Str) (k : Int) (amt : Amount) (h : r.Fits) (ha : FitsAmount amt) :
    (sixLegacyFp L r ns k (selfAndPeerAccountAmount amt ownAccount)).self.legacyTag =
      oldFpTag ns (L.sha1 (textBytes r.type_ ++ dateBytes r.date ++ textBytes [] ++ amountBytes r.balance ++ i32Bytes k ++
        textBytes ownAccount ++ amountBytes amt)) ∧
    (sixLegacyFp L r ns k (selfAndPeerAccountAmount amt ownAccount)).peer.legacyTag =
      oldFpTag ns (L.sha1 (textBytes r.type_ ++ dateBytes r.date ++ textBytes [] ++ amountBytes r.balance ++ i32Bytes k ++
        textBytes (if amt.quantity.neg then expensesAccount else incomeAccount) ++ amountBytes (negateAmount amt))) := by
  obtain ⟨e1, e2, e3, e4, e5, e6, e7, e8⟩ := C81_values
  obtain ⟨_, _, _, h1, h2, h3⟩ := h
  rw [← e4, ← e2, ← e1, ← e1, ← e1, ← e1, ← e6 _ h3, ← e6 _ ha, ← e6 _ (negate_fits ha)]
  constructor <;> exact legacyTag_oldFpTag _ ((C81_base64 _).symm ▸ rfl)

end NationwideCsv

namespace PaypalCsv

/-- C81, PayPal files: the fingerprints of record number `i` (from 0) of a transaction, in both formats. -/
theorem C81_paypal (L : ImportLib) (ns : Str) (v : RawRecord) (i : Nat) (h : v.Fits) (s : Side) (hash : Bytes)
    (hh : hash = L.sha1 (dateBytes v.date ++ timeBytes v.time ++ textBytes v.timeZone ++ optionBytes textBytes v.name ++ textBytes v.type_ ++
      amountBytes (v.money v.amount) ++ amountBytes (v.money v.balance) ++ bigEndian 8 i ++ textBytes s.text)) :
    (s.pick (fingerprints L ns v i).self (fingerprints L ns v i).peer).tag = fpTag "ppcsv" 1 ns hash ∧
    (s.pick (fingerprints L ns v i).self (fingerprints L ns v i).peer).legacyTag = oldFpTag ns hash := by
  obtain ⟨e1, e2, e3, e4, e5, e6, e7, e8⟩ := C81_values
  obtain ⟨_, _, _, _, _, h1, h2, h3⟩ := h
  rw [← e4, ← e5, ← e1, ← e1, ← e1, ← e7, ← e6 _ ⟨h2, h1⟩, ← e6 _ ⟨h3, h1⟩, ← e3] at hh
  subst hh
  cases s
  all_goals
    constructor
    · exact tag_fpTag _ rfl ((C81_base64 _).symm ▸ rfl)
    · exact legacyTag_oldFpTag _ ((C81_base64 _).symm ▸ rfl)

end PaypalCsv

namespace NationwidePdf

/-- C81, PDF statements: the fingerprints of a transaction, which are in the old format only. -/
theorem C81_pdf (L : ImportLib) (ns : Str) (b : TransactionBuilder) (h : b.Fits) :
    (pdfFp L ns b).self.legacyTag = oldFpTag ns (L.sha1 (dateBytes b.date ++ i32Bytes b.dateCounter ++ textBytes b.description ++
      textBytes ownAccount ++ amountBytes (ownPdfAmount b))) ∧
    (pdfFp L ns b).peer.legacyTag = oldFpTag ns (L.sha1 (dateBytes b.date ++ i32Bytes b.dateCounter ++ textBytes b.description ++
      textBytes (if (ownPdfAmount b).quantity.neg then expensesAccount else incomeAccount) ++ amountBytes (negateAmount (ownPdfAmount b)))) := by
  obtain ⟨e1, e2, e3, e4, e5, e6, e7, e8⟩ := C81_values
  have ha : FitsAmount (ownPdfAmount b) := by
    unfold ownPdfAmount
    cases b.type_ <;> exact h.2.2.1
  rw [← e4, ← e2, ← e1, ← e1, ← e1, ← e6 _ ha, ← e6 _ (NationwideCsv.negate_fits ha)]
  constructor
  · refine legacyTag_oldFpTag _ ?_
    rw [← C81_base64]
    show Base64.encode _ = _
    unfold ownPdfAmount
    rfl
  · refine legacyTag_oldFpTag _ ?_
    rw [← C81_base64]
    unfold ownPdfAmount
    rfl

end NationwidePdf

/-- C81: the namespace that is generated for an account is the beginning of the hash of the name of the bank and of the account. -/
theorem C81_namespace (L : ImportLib) (account : Str) :
    Nationwide.FpNamespace.make L .generated account =
      .ok ((base64 (L.sha1 (textBytes "Nationwide".toList ++ textBytes account))).take 8) := by
  rw [← C81_base64, ← str_bytes, ← str_bytes]
  rfl

/-! ## Examples -/

example : base64 (utf8 "hello".toList) = "aGVsbG8".toList := by decide +kernel

example : textBytes "£5".toList = [0, 0, 0, 0, 0, 0, 0, 3, 0xC2, 0xA3, 0x35] := by decide +kernel

example : dateBytes ⟨-1, 2, 29⟩ = [0, 0, 0, 0, 0, 0, 0, 12, 255, 255, 255, 255, 0, 0, 0, 2, 0, 0, 0, 29] := by decide +kernel

example : amountBytes ⟨⟨true, 1050, 2⟩, ⟨"GBP".toList, .left⟩⟩ =
    [0, 0, 0, 0, 0, 0, 0, 20, 0, 0, 2, 128, 26, 4, 0, 0, 0, 0, 0, 0, 0, 0, 0, 0, 1, 0, 0, 0, 0, 0, 0, 0, 3, 71, 66, 80] := by decide +kernel

/-- A row as `C81_five` is about. -/
def Ex.fiveRow : NationwideCsv.RecordFive := ⟨⟨2020, 2, 29⟩, "SHOP".toList, "London".toList, some ⟨⟨false, 1050, 2⟩, ⟨"GBP".toList, .left⟩⟩, none⟩

example : Ex.fiveRow.Fits := by decide +kernel

set_option maxRecDepth 100000 in
/-- With SHA-1, its own posting has this tag in the namespace `test`. -/
example : fpTag "nwcsv5" 1 "test".toList (Sha1.digest (dateBytes Ex.fiveRow.date ++ i32Bytes 0 ++ textBytes Ex.fiveRow.transactions ++
    textBytes Ex.fiveRow.location ++ optionBytes amountBytes Ex.fiveRow.paidOut ++ optionBytes amountBytes Ex.fiveRow.paidIn ++
    textBytes "self".toList)) = "fp-nwcsv5.1.test-uTB6fyCDKJprZAqaLSqOhIRKlmw".toList := by decide +kernel

open NationwideCsv in
/-- A row as `C81_six` and `C81_six_legacy` are about, with the amount for the own account. -/
example : (RecordSix.mk ⟨2019, 1, 1⟩ "ATM".toList "ATM Withdrawal".toList (some ⟨⟨false, 3000, 2⟩, gbp⟩) none ⟨⟨false, 20000, 2⟩, gbp⟩).Fits ∧
    FitsAmount (Amount.mk ⟨true, 3000, 2⟩ gbp) := by decide +kernel

/-- A record as `C81_paypal` is about. -/
example : (PaypalCsv.RawRecord.mk ⟨2019, 1, 1⟩ ⟨1, 23, 45, 0⟩ "GMT".toList (some "Somecompany Inc.".toList) "Payment".toList .cleared "USD".toList
    ⟨true, 500, 2⟩ none ⟨true, 500, 2⟩).Fits := by decide +kernel

open NationwidePdf in
/-- A transaction of a statement as `C81_pdf` is about. -/
example : (NationwidePdf.TransactionBuilder.mk ⟨2020, 2, 29⟩ 3 ⟨⟨false, 1050, 2⟩, ⟨"GBP".toList, .left⟩⟩ .payment none "SHOP London".toList none).Fits := by
  decide +kernel

end Verif
