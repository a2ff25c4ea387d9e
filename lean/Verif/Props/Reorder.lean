import Verif.Proofs.Apart

/-!
# C82, C83: the order within files, and the order of files that have nothing to do with each other
-/

namespace Verif.Spec

/-- Two histories of merge calls after which the same things happen, but for order. Whatever is merged later, and in whatever order
the transactions and postings of each file are: the same files are refused; the same transactions are handed back, with the
same candidates; and the journals are the same, all but for the order of transactions and of postings in a transaction. -/
def BehaveAlike (calls calls' : History) : Prop :=
  ∀ (later later' : History) (h h' : HashOrder) (ts ts' : List TransactionPostings),
    List.Forall₂ Reordered (inputs later) (inputs later') → Reordered ts ts' →
    let m := run (calls ++ later)
    let m' := run (calls' ++ later')
    ((∃ u, (m.merge h ts).1 = .ok u) ↔ ∃ u, (m'.merge h' ts').1 = .ok u) ∧
    (∀ u u' js, (m.merge h ts).1 = .ok u → (m'.merge h' ts').1 = .ok u' → m.build h = .ok js →
      ∃ w, List.Forall₂ (HandedBackAlike js) u w ∧ Reordered w u') ∧
    ∀ js js', m.build h = .ok js → m'.build h' = .ok js' → Reordered js js'

end Verif.Spec

namespace Verif
open Spec Spec.Book

theorem behaveAlike_of {calls calls' : History} (h : Alike (ofHistory (inputs calls)) (ofHistory (inputs calls'))) : BehaveAlike calls calls' := by
  intro later later' o o' ts ts' hl ht m m'
  have key : ∀ calls later : History, R (run (calls ++ later)) ((inputs later).foldl Book.step (ofHistory (inputs calls))) := by
    intro calls later
    have := run_refines (calls ++ later)
    unfold ofHistory inputs at this ⊢
    rw [List.map_append, List.foldl_append] at this
    exact this
  have hm := key calls later
  have hm' := key calls' later'
  have ha := h.steps (run_refines calls) (run_refines calls') hl
  refine ⟨?_, ?_, ?_⟩
  · rw [merge_ok_iff hm, merge_ok_iff hm', ha.bad ht]
  · intro u u' js hu hu' hjs
    rw [hm.build, Except.ok.injEq] at hjs
    subst hjs
    obtain ⟨_, rfl, _⟩ := merge_ok hm (m' := (m.merge o ts).2) (Prod.ext hu rfl)
    obtain ⟨_, rfl, _⟩ := merge_ok hm' (m' := (m'.merge o' ts').2) (Prod.ext hu' rfl)
    exact ha.handedBack _ _ ht
  · intro js js' hjs hjs'
    rw [hm.build, Except.ok.injEq] at hjs
    rw [hm'.build, Except.ok.injEq] at hjs'
    subst hjs; subst hjs'
    exact ha.journal

/-- C82: the order of the transactions in the files, and of the postings in the transactions, makes no difference but for order. Each file is
refused or merged all the same, hands back the same transactions, and the journal has the same transactions with the same postings. -/
theorem C82_order_within_files (calls calls' : History) (h : List.Forall₂ Reordered (inputs calls) (inputs calls')) : BehaveAlike calls calls' :=
  behaveAlike_of ((Alike.refl empty_wf).steps R_new R_new h)

/-- `bankA` with its transactions and the postings of one of them in the other order. -/
def Ex.bankA' : List TransactionPostings :=
  [Ex.trn 1 "cafe" [Ex.post "assets:a" (-200) ["fp-a3"], Ex.post "expenses:food" 200 ["fp-a4"]],
   Ex.trn 2 "shop" [Ex.post "expenses" 500 ["fp-a2", "unknown-account"], Ex.post "assets:a" (-500) ["fp-a1"]]]

theorem Ex.bankA_reordered : Reordered Ex.bankA Ex.bankA' := by
  refine ⟨[Ex.trn 2 "shop" [Ex.post "expenses" 500 ["fp-a2", "unknown-account"], Ex.post "assets:a" (-500) ["fp-a1"]],
    Ex.trn 1 "cafe" [Ex.post "assets:a" (-200) ["fp-a3"], Ex.post "expenses:food" 200 ["fp-a4"]]], ?_, List.Perm.swap _ _ _⟩
  exact .cons ⟨rfl, List.Perm.swap _ _ _⟩ (.cons (Shuffled.refl _) .nil)

/-- The hypothesis of `C82_order_within_files` is met by two histories whose files are not the same. -/
example : List.Forall₂ Reordered (inputs [(HashOrder.sorted, Ex.bankA), (HashOrder.rev, Ex.bankB)])
    (inputs [(HashOrder.rev, Ex.bankA'), (HashOrder.sorted, Ex.bankB)]) :=
  .cons Ex.bankA_reordered (.cons (Reordered.refl _) .nil)

set_option maxRecDepth 100000 in
/-- The order of the postings in the journal does depend on the order in the file. -/
example : (run [(HashOrder.sorted, Ex.bankA'), (HashOrder.sorted, Ex.bankB)]).build HashOrder.sorted = .ok
    [Ex.trn 1 "cafe" [Ex.post "assets:a" (-200) ["fp-a3"], Ex.post "expenses:food" 200 ["fp-a4"]],
     Ex.trn 1 "fee" [Ex.post "assets:b" (-1) ["fp-b2"], Ex.post "expenses:fee" 1 ["fp-b3"]],
     Ex.trn 2 "shop" [Ex.post "assets:b" 500 ["fp-a2", "fp-b1"], Ex.post "assets:a" (-500) ["fp-a1"]]] := by
  rw [Ex.build_eval]; decide +kernel

/-- A file with two things wrong. -/
def Ex.wrong : List TransactionPostings :=
  [Ex.trn 1 "x" [Ex.post "a" 1 ["fp-x", "candidate-fp-y"]], Ex.trn 1 "z" [Ex.post "a" 1 ["z"]]]

set_option maxRecDepth 100000 in
/-- Which of several things wrong with a file is reported does depend on the order in the file. -/
theorem C82_error_differs : Reordered Ex.wrong Ex.wrong.reverse ∧ (Merger.new.merge HashOrder.sorted Ex.wrong).1 = .error .candidateTag ∧
    (Merger.new.merge HashOrder.sorted Ex.wrong.reverse).1 = .error .noFingerprint := by
  refine ⟨.of_perm (List.reverse_perm _).symm, by decide +kernel, by decide +kernel⟩

/-! ### C83 -/

theorem ofHistory_append (a b : History) :
    ofHistory (inputs (a ++ b)) = (inputs b).foldl Book.step (ofHistory (inputs a)) := by
  unfold ofHistory inputs
  rw [List.map_append, List.foldl_append]

/-- C83: files of which no two have anything to do with each other can be merged in any order, on top of any journal. -/
theorem C83_any_order (calls files files' : History) (hp : (inputs files).Perm (inputs files'))
    (ha : (inputs files).Pairwise (Apart (ofHistory (inputs calls)))) : BehaveAlike (calls ++ files) (calls ++ files') := by
  apply behaveAlike_of
  rw [ofHistory_append, ofHistory_append]
  exact alike_apart (run_refines calls) ha hp

/-- C83: each of these files fares the same as if it were the only one: it is refused or merged all the same, and the same transactions are
handed back with the same candidates. -/
theorem C83_on_its_own (calls files : History) (f : List TransactionPostings) (h h' : HashOrder)
    (ha : (inputs files ++ [f]).Pairwise (Apart (ofHistory (inputs calls)))) :
    ((∃ u, ((run (calls ++ files)).merge h f).1 = .ok u) ↔ ∃ u, ((run calls).merge h' f).1 = .ok u) ∧
    ∀ u u' js, ((run (calls ++ files)).merge h f).1 = .ok u → ((run calls).merge h' f).1 = .ok u' →
      (run (calls ++ files)).build h = .ok js → List.Forall₂ (HandedBackAlike js) u u' := by
  obtain ⟨h1, _, h2⟩ := List.pairwise_append.1 ha
  set J := ofHistory (inputs calls) with hJ
  have hR : R (run calls) J := run_refines calls
  have hR' : R (run (calls ++ files)) (J.after (J.accepted (inputs files))) := by
    have := run_refines (calls ++ files)
    rw [ofHistory_append, steps_apart h1] at this
    exact this
  have hap : Apart J (J.accepted (inputs files)) f := by
    apply Apart.symm
    unfold Spec.Book.accepted
    refine Apart.flatten ?_
    intro g hg
    exact (h2 g (List.mem_filter.1 hg).1 f (by simp)).symm
  refine ⟨by rw [merge_ok_iff hR, merge_ok_iff hR', hap.bad], ?_⟩
  intro u u' js hu hu' hjs
  rw [hR'.build, Except.ok.injEq] at hjs
  subst hjs
  obtain ⟨_, rfl, _⟩ := merge_ok hR' (m' := ((run (calls ++ files)).merge h f).2) (Prod.ext hu rfl)
  obtain ⟨_, rfl, _⟩ := merge_ok hR (m' := ((run calls).merge h' f).2) (Prod.ext hu' rfl)
  unfold Spec.Book.handedBack
  have : f.filter (fun t => decide (Undecided (J.after (J.accepted (inputs files))) t)) = f.filter (fun t => decide (Undecided J t)) := by
    apply List.filter_congr
    intro t ht
    rw [decide_eq_decide, hap.undecided ht]
  rw [this, List.forall₂_map_left_iff, List.forall₂_map_right_iff, List.forall₂_same]
  intro t ht
  refine ⟨rfl, ?_⟩
  unfold handBack
  rw [List.forall₂_map_left_iff, List.forall₂_map_right_iff, List.forall₂_same]
  intro p hp
  have hm := hap.candidates (mem_datedPosts.2 ⟨t, (List.mem_filter.1 ht).1, p, hp, rfl⟩)
  exact ⟨p, _, _, .of_eq hm, fun c hc => candidates_mem hR'.wf hc, handBackPost_annotated (pickFp_ok hR'.wf) _ p,
    handBackPost_annotated (pickFp_ok hR.wf) _ p⟩

/-- C83: two such files can be merged one after the other if, and only if, they can be merged as one file; and the journal is then the same,
order and all. -/
theorem C83_one_file (calls : History) (A B : List TransactionPostings) (h₁ h₂ h₃ h h' : HashOrder)
    (ha : Apart (ofHistory (inputs calls)) A B) :
    (((∃ u, ((run calls).merge h₁ A).1 = .ok u) ∧ ∃ u, ((run (calls ++ [(h₁, A)])).merge h₂ B).1 = .ok u) ↔
      ∃ u, ((run calls).merge h₃ (A ++ B)).1 = .ok u) ∧
    ((∃ u, ((run calls).merge h₃ (A ++ B)).1 = .ok u) →
      (run (calls ++ [(h₁, A), (h₂, B)])).build h = (run (calls ++ [(h₃, A ++ B)])).build h') := by
  set J := ofHistory (inputs calls) with hJ
  have hR : R (run calls) J := run_refines calls
  have hR₁ := run_refines (calls ++ [(h₁, A)])
  have hR₂ := run_refines (calls ++ [(h₁, A), (h₂, B)])
  have hR₃ := run_refines (calls ++ [(h₃, A ++ B)])
  rw [ofHistory_append] at hR₁ hR₂ hR₃
  have e1 : (inputs [(h₁, A)]).foldl Book.step J = J.step A := rfl
  have e2 : (inputs [(h₁, A), (h₂, B)]).foldl Book.step J = (J.step A).step B := rfl
  have e3 : (inputs [(h₃, A ++ B)]).foldl Book.step J = J.step (A ++ B) := rfl
  rw [← hJ, e1] at hR₁
  rw [← hJ, e2] at hR₂
  rw [← hJ, e3] at hR₃
  rw [merge_ok_iff hR, merge_ok_iff hR, merge_ok_iff hR₁, ha.bad_append]
  by_cases hA : J.Bad A
  · refine ⟨⟨fun x => absurd hA x.1, fun x => absurd (.inl hA) x⟩, fun x => absurd (.inl hA) x⟩
  · have e4 : J.step A = J.after A := by unfold Book.step; exact if_neg hA
    rw [e4] at hR₁ hR₂ ⊢
    rw [ha.bad]
    refine ⟨⟨fun x y => y.elim hA x.2, fun x => ⟨hA, fun y => x (.inr y)⟩⟩, ?_⟩
    intro hx
    have hB : ¬ J.Bad B := fun y => hx (.inr y)
    have e5 : (J.after A).step B = (J.after A).after B := by unfold Book.step; exact if_neg fun y => hB (ha.bad.1 y)
    have e6 : J.step (A ++ B) = J.after (A ++ B) := by unfold Book.step; exact if_neg fun y => hx (ha.bad_append.1 y)
    rw [hR₂.build, hR₃.build, e5, e6, ha.after_after]

/-- Further statements, with nothing in common. One of them completes a transaction of `bankA`, one adds to the other. -/
def Ex.others : List (List TransactionPostings) :=
  [[Ex.trn 2 "transfer" [Ex.post "assets:b" 500 ["fp-b1"]]],
   [Ex.trn 1 "coffee" [Ex.post "expenses:food" 200 ["fp-d1"], Ex.post "expenses:tip" 20 ["fp-d2"]],
    Ex.trn 2 "fee" [Ex.post "assets:c" (-1) ["fp-c2"]]],
   Ex.bad,
   [Ex.trn 2 "fee" [Ex.post "assets:c" (-2) ["fp-e1"]]]]

/-- `bankA`, and then the other statements. -/
def Ex.baseCall : History := [(HashOrder.sorted, Ex.bankA)]

set_option maxRecDepth 100000 in
/-- The hypothesis of `C83_any_order` is met by these statements on top of `bankA`. -/
theorem Ex.others_apart : Ex.others.Pairwise (Apart (ofHistory (inputs Ex.baseCall))) := by
  have : inputs Ex.baseCall = [Ex.bankA] := rfl
  rw [this, Ex.ofHistory_eval]
  decide +kernel

set_option maxRecDepth 100000 in
/-- They do something to the journal. -/
example : (run (Ex.baseCall ++ Ex.others.map fun f => (HashOrder.sorted, f))).build HashOrder.sorted = .ok
    [Ex.trn 1 "cafe" [Ex.post "assets:a" (-200) ["fp-a3"], Ex.post "expenses:food" 200 ["fp-a4", "fp-d1"], Ex.post "expenses:tip" 20 ["fp-d2"]],
     Ex.trn 2 "shop" [Ex.post "assets:a" (-500) ["fp-a1"], Ex.post "assets:b" 500 ["fp-a2", "fp-b1"]],
     Ex.trn 2 "fee" [Ex.post "assets:c" (-1) ["fp-c2"]], Ex.trn 2 "fee" [Ex.post "assets:c" (-2) ["fp-e1"]]] := by
  rw [Ex.build_eval]; decide +kernel

set_option maxRecDepth 100000 in
/-- In the other order, the fees are in the other order. -/
example : (run (Ex.baseCall ++ Ex.others.reverse.map fun f => (HashOrder.sorted, f))).build HashOrder.sorted = .ok
    [Ex.trn 1 "cafe" [Ex.post "assets:a" (-200) ["fp-a3"], Ex.post "expenses:food" 200 ["fp-a4", "fp-d1"], Ex.post "expenses:tip" 20 ["fp-d2"]],
     Ex.trn 2 "shop" [Ex.post "assets:a" (-500) ["fp-a1"], Ex.post "assets:b" 500 ["fp-a2", "fp-b1"]],
     Ex.trn 2 "fee" [Ex.post "assets:c" (-2) ["fp-e1"]], Ex.trn 2 "fee" [Ex.post "assets:c" (-1) ["fp-c2"]]] := by
  rw [Ex.build_eval]; decide +kernel

/-- The first two of them are as good as one file. -/
example : ∃ A B, Ex.others.take 2 = [A, B] ∧ Apart (ofHistory (inputs Ex.baseCall)) A B ∧
    (∃ u, ((run Ex.baseCall).merge HashOrder.sorted (A ++ B)).1 = .ok u) := by
  refine ⟨_, _, rfl, ?_, [], ?_⟩
  · exact (List.pairwise_cons.1 Ex.others_apart).1 _ (by simp)
  · set_option maxRecDepth 100000 in decide +kernel

/-- Two banks that both claim the 500 which `bankA` does not know the account of. -/
def Ex.claimB : List TransactionPostings := [Ex.trn 2 "transfer" [Ex.post "assets:b" 500 ["fp-b1"]]]
def Ex.claimC : List TransactionPostings := [Ex.trn 2 "transfer" [Ex.post "assets:c" 500 ["fp-c1"]]]

set_option maxRecDepth 100000 in
theorem Ex.claim_BC : (run (Ex.baseCall ++ [(HashOrder.sorted, Ex.claimB), (HashOrder.sorted, Ex.claimC)])).build HashOrder.sorted = .ok
    [Ex.trn 1 "cafe" [Ex.post "assets:a" (-200) ["fp-a3"], Ex.post "expenses:food" 200 ["fp-a4"]],
     Ex.trn 2 "shop" [Ex.post "assets:a" (-500) ["fp-a1"], Ex.post "assets:b" 500 ["fp-a2", "fp-b1"]],
     Ex.trn 2 "transfer" [Ex.post "assets:c" 500 ["fp-c1"]]] := by
  rw [Ex.build_eval]; decide +kernel

set_option maxRecDepth 100000 in
theorem Ex.claim_CB : (run (Ex.baseCall ++ [(HashOrder.sorted, Ex.claimC), (HashOrder.sorted, Ex.claimB)])).build HashOrder.sorted = .ok
    [Ex.trn 1 "cafe" [Ex.post "assets:a" (-200) ["fp-a3"], Ex.post "expenses:food" 200 ["fp-a4"]],
     Ex.trn 2 "shop" [Ex.post "assets:a" (-500) ["fp-a1"], Ex.post "assets:c" 500 ["fp-a2", "fp-c1"]],
     Ex.trn 2 "transfer" [Ex.post "assets:b" 500 ["fp-b1"]]] := by
  rw [Ex.build_eval]; decide +kernel

/-- That no posting of the journal could be taken for one of each is needed: no posting of the one file could be taken for one of the other, but the
first file gets the posting with the unknown account. -/
theorem C83_first_come : (∀ a ∈ datedPosts Ex.claimB, ∀ b ∈ datedPosts Ex.claimC, ¬ Likely a b) ∧
    ¬ BehaveAlike (Ex.baseCall ++ [(HashOrder.sorted, Ex.claimB), (HashOrder.sorted, Ex.claimC)])
      (Ex.baseCall ++ [(HashOrder.sorted, Ex.claimC), (HashOrder.sorted, Ex.claimB)]) := by
  constructor
  · set_option maxRecDepth 100000 in decide +kernel
  · intro h
    have := (h [] [] HashOrder.sorted HashOrder.sorted [] [] .nil (.refl _)).2.2 _ _
      (by rw [List.append_nil]; exact Ex.claim_BC) (by rw [List.append_nil]; exact Ex.claim_CB)
    have := this.allPosts.mem_iff (a := Ex.post "assets:c" 500 ["fp-c1"])
    revert this
    set_option maxRecDepth 100000 in decide +kernel

end Verif
