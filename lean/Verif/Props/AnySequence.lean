import Verif.Props.Values2
import Verif.Proofs.Invert
/-!
# C54 with groups and merged rules: the value of any sequence

Sequences with groups, with optional groups that have labels inside, and with rules merged by `@:`.
-/

namespace Joeson
open RuleText

/-- The operations on trees. -/
structure AstMerges (P : PureOps Ast) : Prop extends AstMaps P where
  merge : ∀ a b, P.merge a b = a.merge b
  undef : P.undef = .undef
  noUndef : P.isUndef .undef = true

/-- What an element with this label and this value puts into the map of its sequence. -/
def putInto (lab : String) (v : Ast) : List (String × Ast) :=
  if lab = "" then [] else if lab = "@" then (match v with | .map kvs => kvs | _ => []) else [(lab, v)]

/-- What all the elements put into it, in this order. -/
def allPut (l : List (VP × Ast)) : List (String × Ast) := l.flatMap fun x => putInto x.1.outLab x.2

/-- Put one after the other: a later value of a key replaces an earlier one, at its place. -/
def writeAll (kvs : List (String × Ast)) (m : List (String × Ast)) : List (String × Ast) := kvs.foldl (fun m p => kvSet p.1 p.2 m) m

/-- A value that can be merged: undefined, or a map (whose keys are distinct). -/
def Mergeable (v : Ast) : Prop := v = .undef ∨ ∃ kvs, v = .map kvs ∧ (kvs.map (·.1)).Nodup

theorem writeAll_new : ∀ (kvs m : List (String × Ast)), (m.map (·.1) ++ kvs.map (·.1)).Nodup → writeAll kvs m = m ++ kvs
  | [], m, _ => by simp [writeAll]
  | (k, v) :: kvs, m, h => by
    have hk : k ∉ m.map (·.1) := fun hm => (List.nodup_append.mp h).2.2 k hm k (by simp) rfl
    have := writeAll_new kvs (m ++ [(k, v)]) (by simpa using h)
    unfold writeAll at this ⊢
    rw [List.foldl_cons, kvSet_absent _ _ _ hk, this]
    simp

/-- What the sequence has so far. -/
def SoFar (acc : Option Ast) (m : List (String × Ast)) : Prop := (acc.getD .undef = .undef ∧ m = []) ∨ acc = some (.map m)

theorem addLabelled_put {P : PureOps Ast} (hP : AstMerges P) {acc : Option Ast} {m : List (String × Ast)} (h : SoFar acc m) {lab : String} {v : Ast}
    (h1 : lab ≠ "&") (h2 : lab = "@" → Mergeable v) : ∃ acc', addLabelled P acc lab v = .ok acc' ∧ SoFar acc' (writeAll (putInto lab v) m) := by
  by_cases h0 : lab = ""
  · exact ⟨acc, by unfold addLabelled; rw [if_pos h0], by simpa [putInto, h0, writeAll] using h⟩
  rcases h with ⟨ha, rfl⟩ | rfl
  · have hf : acc.filter (fun r => !P.isUndef r) = none := by
      cases acc with
      | none => rfl
      | some a =>
        simp only [Option.getD_some] at ha
        subst ha
        simp [Option.filter, hP.noUndef]
    unfold addLabelled
    rw [if_neg h0, hf]
    by_cases h3 : lab = "@"
    · refine ⟨some v, by simp [h3], ?_⟩
      rcases h2 h3 with rfl | ⟨kvs, rfl, hnd⟩
      · exact .inl ⟨rfl, by simp [putInto, h3, writeAll]⟩
      · refine .inr ?_
        simp only [putInto, h3, if_true, show ("@" : String) ≠ "" by decide, if_false]
        rw [writeAll_new kvs [] (by simpa using hnd)]
        rfl
    · refine ⟨some (P.newMap lab v), by simp [h1, h3], .inr ?_⟩
      simp [putInto, h0, h3, hP.newMap, writeAll, kvSet]
  · have hf : Option.filter (fun r => !P.isUndef r) (some (Ast.map m)) = some (Ast.map m) := by simp [Option.filter, hP.isUndef]
    unfold addLabelled
    rw [if_neg h0, hf]
    by_cases h3 : lab = "@"
    · simp only [h1, h3, if_true, hP.merge, show ("@" : String) ≠ "&" by decide, if_false]
      rcases h2 h3 with rfl | ⟨kvs, rfl, hnd⟩
      · exact ⟨some (.map m), rfl, .inr (by simp [putInto, writeAll])⟩
      · exact ⟨_, rfl, .inr (by simp [putInto, writeAll])⟩
    · simp only [h1, h3, if_false, hP.mapSet]
      exact ⟨_, rfl, .inr (by simp [putInto, h0, h3, writeAll])⟩

theorem addAll_put {P : PureOps Ast} (hP : AstMerges P) : ∀ (l : List (VP × Ast)) (acc : Option Ast) (m : List (String × Ast)), SoFar acc m →
    (∀ x ∈ l, x.1.outLab ≠ "&" ∧ (x.1.outLab = "@" → Mergeable x.2)) →
    ∃ acc', l.foldlM (fun a x => addLabelled P a x.1.outLab x.2) acc = .ok acc' ∧ SoFar acc' (writeAll (allPut l) m)
  | [], acc, m, h, _ => ⟨acc, rfl, h⟩
  | x :: l, acc, m, h, hl => by
    obtain ⟨a, ha, hm⟩ := addLabelled_put hP h (hl x (List.mem_cons_self ..)).1 (hl x (List.mem_cons_self ..)).2
    obtain ⟨a', ha', hm'⟩ := addAll_put hP l a _ hm fun y hy => hl y (List.mem_cons_of_mem _ hy)
    refine ⟨a', by rw [List.foldlM_cons, ha]; exact ha', ?_⟩
    simpa [allPut, writeAll, List.foldl_append] using hm'

/-- C54: the value of any sequence, groups and merged rules included. Without labels (of elements, of elements of groups) the last of the
kept values, or all of them if there are more than one, counting those of groups; with labels the map of what the elements put into it, or
undefined if they put nothing. The label `&` is excluded, and merging something that is not a map. -/
theorem C54_any_sequence (P : PureOps Ast) (hP : AstMerges P) (N : Nat) (L : List GLine) (d : Nat) (h : Bool) (lab : String) (l : List VP)
    (s : Bytes) (v : Ast) (s' : Bytes) (hy : Yields P N L d (.core h (.seq lab l)) s (.ok (some (v, s')))) :
    ∃ vs, Chain P N L d l s vs s' ∧
      (VP.anyLabels l = false → VP.countAll l ≤ 1 → v = (kept (l.zip vs)).getLast?.getD .undef) ∧
      (VP.anyLabels l = false → 1 < VP.countAll l → v = P.arr (kept (l.zip vs))) ∧
      (VP.anyLabels l = true → (∀ x ∈ l.zip vs, x.1.outLab ≠ "&" ∧ (x.1.outLab = "@" → Mergeable x.2)) →
        (v = .undef ∧ allPut (l.zip vs) = []) ∨ v = .map (writeAll (allPut (l.zip vs)) [])) := by
  cases hy with
  | seq hi =>
    obtain ⟨vs, hc, hw⟩ := items_chain l hi
    simp only [List.nil_append] at hw
    refine ⟨vs, hc, fun h1 h2 => ?_, fun h1 h2 => ?_, fun h1 h2 => ?_⟩
    · unfold formOf at hw
      rw [h1, if_neg (by simp), if_neg (by omega)] at hw
      simp only [gather, hP.undef] at hw
      simpa using hw.symm
    · unfold formOf at hw
      rw [h1, if_neg (by simp), if_pos h2] at hw
      simp only [gather] at hw
      simpa using hw.symm
    · unfold formOf at hw
      rw [h1, if_pos rfl] at hw
      obtain ⟨a, ha, hm⟩ := addAll_put hP (l.zip vs) none [] (.inl ⟨rfl, rfl⟩) h2
      simp only [gather, show addAll P (l.zip vs) = .ok a from ha, Except.map, Except.ok.injEq, hP.undef] at hw
      rcases hm with ⟨hm, hm'⟩ | rfl
      · refine .inl ⟨by rw [← hw, hm], ?_⟩
        have : ∀ (kvs m : List (String × Ast)), writeAll kvs m = [] → kvs = [] := by
          intro kvs
          induction kvs with
          | nil => intro m _; rfl
          | cons p kvs ih =>
            intro m hm
            have := ih (kvSet p.1 p.2 m) hm
            subst this
            have hm : kvSet p.1 p.2 m = [] := hm
            cases m with
            | nil => cases hm
            | cons q m =>
              obtain ⟨k, w⟩ := q
              simp only [kvSet] at hm
              split at hm <;> cases hm
        exact this _ _ hm'
      · exact .inr hw.symm

/-- The labels of a text: a sequence with labels, none of whose elements is a group, or a single expression with a label. -/
inductive TextLabels : VP → List String → Prop
  | seq {l ks} : (∀ p ∈ l, VP.Atomic p ∧ p.lab ≠ "@" ∧ p.lab ≠ "&") → (l.map VP.lab).filter (· != "") = ks → ks ≠ [] → ks.Nodup →
      TextLabels (.seq "" l) ks
  | one {p} : VP.Atomic p → p.lab ≠ "" → p.lab ≠ "@" → p.lab ≠ "&" → TextLabels p [p.lab]

theorem TextLabels.nodup {p : VP} {ks : List String} (h : TextLabels p ks) : ks.Nodup := by
  cases h with
  | seq _ _ _ h => exact h
  | one => exact List.nodup_singleton _

/-- The value of such a text is a map with these keys. -/
theorem textLabels_value {P : PureOps Ast} (hP : AstMaps P) {N : Nat} {L : List GLine} {d : Nat} {p : VP} {ks : List String} (h : TextLabels p ks)
    {s : Bytes} {v : Ast} {s' : Bytes} (hy : Yields P N L d (.part false p) s (.ok (some (v, s')))) : ∃ kvs, v = .map kvs ∧ kvs.map (·.1) = ks := by
  generalize hr : (Except.ok (some (v, s')) : VRes Ast) = r at hy
  cases hy with
  | @part _ _ _ _ r0 hc =>
    match r0, hr with
    | .error _, hr => cases hr
    | .ok none, hr => cases hr
    | .ok (some (v0, s0)), hr =>
      simp only [own, Except.ok.injEq, Option.some.injEq, Prod.mk.injEq] at hr
      obtain ⟨rfl, rfl⟩ := hr
      cases h with
      | @seq l _ h1 h2 h3 h4 =>
        obtain ⟨vs, _, hv, hk⟩ := C54_labelled_sequence_partial P hP N L d false "" l h1 (by
          by_contra hn
          refine h3 ?_
          rw [← h2, List.filter_eq_nil_iff]
          intro x hx
          obtain ⟨p, hp, rfl⟩ := List.mem_map.mp hx
          by_contra hx
          exact hn ⟨p, hp, by simpa using hx⟩) (by rw [h2]; exact h4) s v0 s' hc
        exact ⟨_, by simpa [VP.outLab, VP.lab] using hv, by rw [hk, h2]⟩
      | one h1 h2 h3 h4 =>
        have := (atomic_labels p h1 h3 h4).2
        rw [this]
        exact ⟨[(p.lab, v0)], by simp [h2, hP.newMap], rfl⟩

/-- The keys an element of a sequence puts into its map; a merged rule, those of its text. -/
inductive PutsKeys (L : List GLine) : VP → List String → Prop
  | plain {p} : VP.Atomic p → p.lab = "" → PutsKeys L p []
  | own {p} : VP.Atomic p → p.lab ≠ "" → p.lab ≠ "@" → p.lab ≠ "&" → PutsKeys L p [p.lab]
  | merged {nm q e ks} : (nm, none, Body.text e) ∈ rulesOf L → TextLabels e.vp ks → PutsKeys L (.name "@" nm q) ks

theorem PutsKeys.put {P : PureOps Ast} (hP : AstMerges P) {N : Nat} {L : List GLine} (hL : OneRule L) {d : Nat} {p : VP} {ks : List String} (h : PutsKeys L p ks)
    {s : Bytes} {v : Ast} {s' : Bytes} (hy : Yields P N L d (.part true p) s (.ok (some (v, s')))) :
    p.outLab ≠ "&" ∧ (p.outLab = "@" → Mergeable v) ∧ (putInto p.outLab v).map (·.1) = ks ∧ (ks ≠ [] → p.hasLabels = true) := by
  cases h with
  | plain h1 h2 =>
    have := (atomic_labels p h1 (by rw [h2]; decide) (by rw [h2]; decide)).2
    rw [this, h2]
    exact ⟨by decide, fun h => absurd h (by decide), rfl, fun h => absurd rfl h⟩
  | own h1 h2 h3 h4 =>
    have := atomic_labels p h1 h3 h4
    rw [this.2]
    exact ⟨h4, fun h => absurd h h3, by simp [putInto, h2, h3], fun _ => by rw [this.1]; simpa using h2⟩
  | @merged nm q e ks h1 h2 =>
    have hv : ∃ kvs, v = .map kvs ∧ kvs.map (·.1) = ks := by
      generalize hr : (Except.ok (some (v, s')) : VRes Ast) = r at hy
      cases hy with
      | @part _ _ _ _ r0 hc =>
        have h0 : r0 = .ok (some (v, s')) := by
          match r0, hr with
          | .error _, hr => cases hr
          | .ok none, hr => cases hr
          | .ok (some (v0, s0)), hr => simpa [RuleText.own] using hr.symm
        subst h0
        cases hc with
        | @name _ _ _ _ _ cb b _ _ hm hy =>
          obtain ⟨rfl, rfl⟩ := hL _ _ _ _ _ hm h1
          generalize hr' : (Except.ok (some (v, s')) : VRes Ast) = r' at hy
          cases hy with
          | @text _ _ _ _ r1 hy =>
            have h1 : r1 = .ok (some (v, s')) := by
              match r1, hr' with
              | .error _, hr => cases hr
              | .ok none, hr => cases hr
              | .ok (some (v0, s0)), hr => simpa [called] using hr.symm
            subst h1
            exact textLabels_value hP.toAstMaps h2 hy
    obtain ⟨kvs, rfl, hk⟩ := hv
    exact ⟨show "@" ≠ "&" by decide, fun _ => .inr ⟨kvs, rfl, by rw [hk]; exact h2.nodup⟩, by simpa [putInto, VP.outLab, VP.lab] using hk, fun _ => rfl⟩

theorem chain_keys {P : PureOps Ast} (hP : AstMerges P) {N : Nat} {L : List GLine} (hL : OneRule L) {d : Nat} {l : List VP} {s : Bytes} {vs : List Ast}
    {s' : Bytes} (hc : Chain P N L d l s vs s') : ∀ {kss : List (List String)}, List.Forall₂ (PutsKeys L) l kss →
    (∀ x ∈ l.zip vs, x.1.outLab ≠ "&" ∧ (x.1.outLab = "@" → Mergeable x.2)) ∧ (allPut (l.zip vs)).map (·.1) = kss.flatten ∧
      (kss.flatten ≠ [] → VP.anyLabels l = true) := by
  induction hc with
  | nil =>
    rintro _ ⟨⟩
    exact ⟨by simp, rfl, fun h => absurd rfl h⟩
  | @cons p l s v s1 vs s2 hy hc ih =>
    rintro _ (_ | ⟨hk, hks⟩)
    obtain ⟨a1, a2, a3⟩ := ih hks
    obtain ⟨b1, b2, b3, b4⟩ := hk.put hP hL hy
    refine ⟨?_, ?_, ?_⟩
    · intro x hx
      rcases List.mem_cons.mp hx with rfl | hx
      · exact ⟨b1, b2⟩
      · exact a1 x hx
    · rw [List.flatten_cons, ← a2, ← b3]
      simp [allPut]
    · intro hne
      rw [VP.anyLabels, Bool.or_eq_true]
      by_cases h0 : (putInto p.outLab v).map (·.1) = []
      · refine .inr (a3 ?_)
        rw [List.flatten_cons, ← b3, h0] at hne
        simpa using hne
      · exact .inl (b4 fun h => h0 (by rw [b3, h]))

/-- C54: a sequence with labels that merges other rules with `@:` gives a map of its labels, and at the place of each merged rule the labels
of that rule, in this order, if they are all different. -/
theorem C54_merged_rules (P : PureOps Ast) (hP : AstMerges P) (N : Nat) (L : List GLine) (hL : OneRule L) (d : Nat) (h : Bool) (lab : String) (l : List VP)
    (kss : List (List String)) (hk : List.Forall₂ (PutsKeys L) l kss) (hne : kss.flatten ≠ []) (hnd : kss.flatten.Nodup)
    (s : Bytes) (v : Ast) (s' : Bytes) (hy : Yields P N L d (.core h (.seq lab l)) s (.ok (some (v, s')))) :
    ∃ vs, Chain P N L d l s vs s' ∧ v = .map (allPut (l.zip vs)) ∧ (allPut (l.zip vs)).map (·.1) = kss.flatten := by
  obtain ⟨vs, hc, _, _, hv⟩ := C54_any_sequence P hP N L d h lab l s v s' hy
  obtain ⟨a1, a2, a3⟩ := chain_keys hP hL hc hk
  refine ⟨vs, hc, ?_, a2⟩
  rcases hv (a3 hne) a1 with ⟨_, h0⟩ | h0
  · rw [h0] at a2
    exact absurd a2.symm hne
  · rw [h0, writeAll_new _ [] (by simpa [a2] using hnd)]
    rfl

namespace Sample

/-- `x:A @:R z:C?`, `R: y:B` -/
def mergedSeq : List VP := [.name "x" "A" false, .name "@" "R" false, .opt "z" (.name "" "C" false)]

/-- `R: y:B`, and `A`, `B`, `C` -/
def mergedLines : List GLine := .incl "R" none (.text (.single (.one [] (some (asc "y")) (.prim (refE "B"))) [])) :: abc

end Sample

open Sample in
/-- It gives `{x, y, z}`. -/
example : List.Forall₂ (PutsKeys mergedLines) mergedSeq [["x"], ["y"], ["z"]] ∧
    Yields pure 3 mergedLines 9 (.core false (.seq "" mergedSeq)) (asc "abc")
      (.ok (some (.map [("x", .str (asc "a")), ("y", .str (asc "b")), ("z", .str (asc "c"))], []))) := by
  refine ⟨.cons (.own trivial (by decide) (by decide) (by decide)) (.cons (.merged (.head _) (.one trivial (by decide) (by decide) (by decide)))
    (.cons (.own ⟨trivial, rfl⟩ (by decide) (by decide) (by decide)) .nil)), vrun_sound 20 _ _ _ _ (by kernel_rfl)⟩

open Sample in
/-- The operations of the samples are such. -/
theorem pure_merges : AstMerges pure where
  newMap _ _ := rfl
  mapSet _ _ _ := rfl
  isUndef kvs := by
    show (Ast.map kvs == Ast.undef) = false
    simp
  merge _ _ := rfl
  undef := rfl
  noUndef := by
    show (Ast.undef == Ast.undef) = true
    simp

open Sample in
/-- Each name has one rule. -/
example : OneRule mergedLines := oneRule_of (by decide)

open Sample in
/-- With a group: `x:A (y:B)` puts only `x` into the map; the label in the group makes it a map nevertheless, without `x` it is undefined. -/
example : allPut ([(VP.name "x" "A" false, Ast.str (asc "a")), (.seq "" [.name "y" "B" false], .map [("y", .str (asc "b"))])]) = [("x", .str (asc "a"))] ∧
    VP.anyLabels [.seq "" [.name "y" "B" false]] = true ∧ allPut [(VP.seq "" [.name "y" "B" false], Ast.map [("y", .str (asc "b"))])] = [] :=
  ⟨rfl, rfl, rfl⟩

end Joeson
