import Verif.Props.Lines
/-!
# C45: references labelled `@` to undefined rules
-/

namespace Joeson

namespace Spec

/-- A reference to `nm` whose labels are taken over, `@:nm`, is an element of the parser: itself, in a sequence, in an optional that has no label of its own. -/
inductive Splices (nm : String) : Node → Prop
  | ref {i : Info} : i.label = "@" → Splices nm (.ref i nm)
  | seq {i : Info} {r : SeqRepr} {l : List Node} {n : Node} : n ∈ l → Splices nm n → Splices nm (.seq i r l)
  | exist {i : Info} {n : Node} : i.label = "" ∨ i.label = "@" ∨ i.label = "&" → Splices nm n → Splices nm (.exist i n)

/-- Somewhere in the parser there is an optional without a label of its own in which this is so. -/
inductive SplicesInOpt (nm : String) : Node → Prop
  | here {i : Info} {n : Node} : i.label = "" ∨ i.label = "@" ∨ i.label = "&" → Splices nm n → SplicesInOpt nm (.exist i n)
  | choice {i : Info} {l : List Node} {n : Node} : n ∈ l → SplicesInOpt nm n → SplicesInOpt nm (.choice i l)
  | seq {i : Info} {r : SeqRepr} {l : List Node} {n : Node} : n ∈ l → SplicesInOpt nm n → SplicesInOpt nm (.seq i r l)
  | exist {i : Info} {n : Node} : SplicesInOpt nm n → SplicesInOpt nm (.exist i n)
  | look {i : Info} {n : Node} : SplicesInOpt nm n → SplicesInOpt nm (.look i n)
  | not {i : Info} {n : Node} : SplicesInOpt nm n → SplicesInOpt nm (.not i n)
  | pattern {i : Info} {n : Node} {j : Option Node} {mn mx : Int} : SplicesInOpt nm n → SplicesInOpt nm (.pattern i n j mn mx)
  | join {i : Info} {n j : Node} {mn mx : Int} : SplicesInOpt nm j → SplicesInOpt nm (.pattern i n (some j) mn mx)

end Spec

open Spec

variable {lookup : String → Option Nat} {rules : List Node} {nm : String}

theorem anyLabels_error {follow : String → Except Panic Bool} : ∀ {l : List Node} {n : Node}, n ∈ l → (∃ e, n.hasLabels follow = .error e) → ∃ e, Node.anyLabels follow l = .error e
  | [], _, h, _ => by cases h
  | a :: l, n, h, he => by
    rw [Node.anyLabels]
    cases ha : a.hasLabels follow with
    | error e => exact ⟨e, rfl⟩
    | ok b =>
      rcases List.mem_cons.mp h with rfl | h
      · obtain ⟨e, he⟩ := he; rw [he] at ha; cases ha
      · obtain ⟨e, he⟩ := anyLabels_error h he
        exact ⟨e, by rw [he]; rfl⟩

theorem Spec.Splices.labels {k : Nat} (hl : lookup nm = none) {n : Node} (h : Splices nm n) : ∃ e, n.hasLabels (followLabels lookup rules k) = .error e := by
  induction h with
  | ref hi => exact ⟨.undefinedRef nm, by rw [Node.hasLabels, if_pos hi, followLabels, hl]⟩
  | seq hm _ ih => rw [Node.hasLabels]; exact anyLabels_error hm ih
  | exist hi _ ih =>
    rw [Node.hasLabels, if_neg]
    · exact ih
    · rintro ⟨h1, h2, h3⟩
      rcases hi with h | h | h
      · exact h1 h
      · exact h2 h
      · exact h3 h

theorem prepList_each {labels : Node → Except Panic Bool} : ∀ {l l' : List Node}, Node.prepList labels rules l = .ok l' → ∀ n ∈ l, ∃ n' ∈ l', n.prep labels rules = .ok n'
  | [], _, h, n, hn => by cases hn
  | a :: l, l', h, n, hn => by
    rw [Node.prepList] at h
    cases ha : a.prep labels rules with
    | error e => rw [ha] at h; cases h
    | ok a' =>
      cases hb : Node.prepList labels rules l with
      | error e => rw [ha, hb] at h; cases h
      | ok l1 =>
        rw [ha, hb] at h
        cases h
        rcases List.mem_cons.mp hn with rfl | hn
        · exact ⟨a', List.mem_cons_self .., ha⟩
        · obtain ⟨n', h1, h2⟩ := prepList_each hb n hn
          exact ⟨n', List.mem_cons_of_mem _ h1, h2⟩

theorem Spec.Splices.prep {labels : Node → Except Panic Bool} {n : Node} (h : Splices nm n) : ∀ {n' : Node}, n.prep labels rules = .ok n' → Splices nm n' := by
  induction h with
  | ref hi => intro n' h; cases h; exact .ref hi
  | @seq i r l n hm _ ih =>
    intro n' h
    rw [Node.prep] at h
    cases hb : Node.prepList labels rules l with
    | error e => rw [hb] at h; cases h
    | ok l1 =>
      rw [hb] at h
      cases h
      obtain ⟨n', h1, h2⟩ := prepList_each hb n hm
      exact .seq h1 (ih h2)
  | @exist i n hi _ ih =>
    intro n' h
    rw [Node.prep] at h
    cases hb : n.prep labels rules with
    | error e => rw [hb] at h; cases h
    | ok n1 =>
      rw [hb] at h
      cases hc : labels (.exist i n1) with
      | error e => simp only [hc, bind, Except.bind] at h; cases h
      | ok b =>
        simp only [hc, bind, Except.bind, pure, Except.pure, Except.ok.injEq] at h
        subst h
        refine .exist ?_ (ih hb)
        simp only
        split
        · exact .inr (.inl rfl)
        · exact hi

theorem prepList_error {labels : Node → Except Panic Bool} {l : List Node} {n : Node} (hm : n ∈ l) (h : ∀ n', n.prep labels rules ≠ .ok n') : ∃ e, Node.prepList labels rules l = .error e := by
  cases hb : Node.prepList labels rules l with
  | error e => exact ⟨e, rfl⟩
  | ok l1 =>
    obtain ⟨n', _, h2⟩ := prepList_each hb n hm
    exact absurd h2 (h n')

theorem Spec.SplicesInOpt.prep {k : Nat} (hl : lookup nm = none) {n : Node} (h : SplicesInOpt nm n) :
    ∀ n', n.prep (fun m => m.hasLabels (followLabels lookup rules k)) rules ≠ .ok n' := by
  induction h with
  | @here i n hi hs =>
    intro n' h
    rw [Node.prep] at h
    cases hb : n.prep (fun m => m.hasLabels (followLabels lookup rules k)) rules with
    | error e => rw [hb] at h; cases h
    | ok n1 =>
      rw [hb] at h
      obtain ⟨e, he⟩ := (Splices.exist hi (hs.prep hb)).labels (rules := rules) (k := k) hl
      simp only [he, bind, Except.bind] at h
      cases h
  | choice hm _ ih =>
    intro n' h
    obtain ⟨e, he⟩ := prepList_error hm ih
    rw [Node.prep, he] at h
    cases h
  | seq hm _ ih =>
    intro n' h
    obtain ⟨e, he⟩ := prepList_error hm ih
    rw [Node.prep, he] at h
    cases h
  | @exist i n _ ih | @look i n _ ih | @not i n _ ih =>
    intro n' h
    rw [Node.prep] at h
    cases hb : n.prep (fun m => m.hasLabels (followLabels lookup rules k)) rules with
    | error e => rw [hb] at h; cases h
    | ok n1 => exact ih n1 hb
  | @pattern i n j mn mx _ ih =>
    intro n' h
    cases hb : n.prep (fun m => m.hasLabels (followLabels lookup rules k)) rules with
    | error e => cases j <;> rw [Node.prep, hb] at h <;> cases h
    | ok n1 => exact ih n1 hb
  | @join i n j mn mx _ ih =>
    intro n' h
    rw [Node.prep] at h
    cases hb : n.prep (fun m => m.hasLabels (followLabels lookup rules k)) rules with
    | error e => rw [hb] at h; cases h
    | ok n1 =>
      cases hc : j.prep (fun m => m.hasLabels (followLabels lookup rules k)) rules with
      | error e => simp only [hb, hc, bind, Except.bind] at h; cases h
      | ok n2 => exact ih n2 hc

/-- C45: preparing the rules fails if in one of them there is an optional with a reference `@:nm`, and there is no rule `nm`. So undefined references are not only reported
when a parse reaches them. -/
theorem C45_spliced_in_optional_panics (hl : lookup nm = none) : ∀ (todo done : List Node), (∃ n ∈ todo, SplicesInOpt nm n) → ∃ e, prepAll lookup todo done = .error e
  | [], _, ⟨_, h, _⟩ => by cases h
  | a :: todo, done, ⟨n, hn, hs⟩ => by
    rw [prepAll]
    cases ha : a.prep (fun m => m.hasLabels (followLabels lookup done done.length)) done with
    | error e => exact ⟨e, rfl⟩
    | ok a' =>
      rcases List.mem_cons.mp hn with rfl | hn
      · exact absurd ha (hs.prep hl a')
      · exact C45_spliced_in_optional_panics hl todo (done ++ [a']) ⟨n, hn, hs⟩

namespace Sample

/-- `(@:nosuch)?` -/
def spliceNode : Node := .exist {} (.ref { label := "@" } "nosuch")
/-- `@:nosuch` -/
def spliceRef : Node := .ref { label := "@" } "nosuch"

end Sample

/-- The rule cannot be reached by any parse, `S` does not mention it. The grammar cannot be built nevertheless. Without the optional it can. -/
theorem C45_unreached_panics :
    (match grammarFromLines (fun s => .ok (if s = asc "a" then .str {} (asc "a") else Sample.spliceNode)) "" [.o "S" (.s (asc "a")) {}, .i "T" (.s (asc "b")) {}] with
      | .error (.undefinedRef "nosuch") => true | _ => false) = true ∧
    (match grammarFromLines (fun s => .ok (if s = asc "a" then .str {} (asc "a") else Sample.spliceRef)) "" [.o "S" (.s (asc "a")) {}, .i "T" (.s (asc "b")) {}] with
      | .ok _ => true | _ => false) = true := by
  decide +kernel

example : SplicesInOpt "nosuch" Sample.spliceNode := .here (.inl rfl) (.ref rfl)

end Joeson
