import Verif.Props.Values
import Verif.Props.Native
import Verif.Proofs.RuleTextCheck
/-!
# C54: the rules of thumb about values (README.md:269-283)
-/

namespace Joeson
open RuleText

variable {V H : Type}

/-- The elements of a sequence match one after the other, with these values. -/
inductive Chain (P : PureOps V) (N : Nat) (L : List GLine) (d : Nat) : List VP → Bytes → List V → Bytes → Prop
  | nil {s} : Chain P N L d [] s [] s
  | cons {p l s v s' vs s''} : Yields P N L d (.part true p) s (.ok (some (v, s'))) → Chain P N L d l s' vs s'' →
      Chain P N L d (p :: l) s (v :: vs) s''

/-- Neither a group nor an optional group. -/
def VP.Atomic : VP → Prop
  | .seq _ _ => False
  | .opt _ p => VP.Atomic p ∧ p.lab = ""
  | _ => True

theorem atomic_labels : ∀ (p : VP), VP.Atomic p → p.lab ≠ "@" → p.lab ≠ "&" → p.hasLabels = (p.lab != "") ∧ p.outLab = p.lab
  | .seq _ _, h, _, _ => h.elim
  | .opt lab p, h, h1, h2 => by
    have ih := atomic_labels p h.1 (by rw [h.2]; decide) (by rw [h.2]; decide)
    have hp : p.hasLabels = false := by rw [ih.1, h.2]; rfl
    refine ⟨?_, ?_⟩
    · simp only [VP.hasLabels, hp, VP.lab, Bool.or_false]
      have h1' : (lab != "@") = true := bne_iff_ne.mpr h1
      have h2' : (lab != "&") = true := bne_iff_ne.mpr h2
      rw [h1', h2', Bool.and_true, Bool.and_true]
    · simp [VP.outLab, hp, VP.lab]
  | .lit _ _, _, _, _ | .re _ _, _, _, _ | .name _ _ _, _, _, _ | .alt _ _, _, _, _ | .rep _ _ _ _ _, _, _, _ | .not _ _, _, _, _
  | .look _ _, _, _, _ => ⟨rfl, rfl⟩

theorem atomic_count : ∀ (p : VP), VP.Atomic p → p.count = p.keeps.toNat
  | .seq _ _, h => h.elim
  | .opt lab p, h => by
    have ih := atomic_count p h.1
    simp only [VP.count, VP.keeps, ih]
    cases p.keeps <;> rfl
  | .lit _ _, _ | .re _ _, _ | .name _ _ _, _ | .alt _ _, _ | .rep _ _ _ _ _, _ | .not _ _, _ | .look _ _, _ => rfl

theorem items_chain {P : PureOps V} {N : Nat} {L : List GLine} {d : Nat} {f : Form} {w : V} {s' : Bytes} : ∀ (l : List VP) {acc : List (VP × V)}
    {s : Bytes}, Yields P N L d (.items f l acc) s (.ok (some (w, s'))) → ∃ vs, Chain P N L d l s vs s' ∧ gather P f (acc ++ l.zip vs) = .ok w
  | [], acc, s, h => by
    cases h with
    | itemsEnd hg => exact ⟨[], .nil, by simpa using hg⟩
  | p :: l, acc, s, h => by
    cases h with
    | @itemsPut _ _ _ _ _ _ v s1 _ _ h1 hg h2 =>
      obtain ⟨vs, hc, hw⟩ := items_chain l h2
      exact ⟨v :: vs, .cons h1 hc, by simpa using hw⟩

theorem chain_length {P : PureOps V} {N : Nat} {L : List GLine} {d : Nat} {l : List VP} {s : Bytes} {vs : List V} {s' : Bytes}
    (h : Chain P N L d l s vs s') : vs.length = l.length := by
  induction h with
  | nil => rfl
  | cons _ _ ih => simp [ih]

theorem kept_length : ∀ (l : List VP) (vs : List V), vs.length = l.length → (∀ p ∈ l, VP.Atomic p) → (kept (l.zip vs)).length = VP.countAll l
  | [], vs, _, _ => rfl
  | p :: l, [], h, _ => by cases h
  | p :: l, v :: vs, h, ha => by
    have ih := kept_length l vs (by simpa using h) fun q hq => ha q (List.mem_cons_of_mem _ hq)
    simp only [VP.countAll, atomic_count p (ha p (List.mem_cons_self ..)), ← ih]
    simp only [kept, List.zip_cons_cons, List.filter_cons]
    cases p.keeps <;> simp <;> omega

theorem anyLabels_atomic : ∀ (l : List VP), (∀ p ∈ l, VP.Atomic p ∧ p.lab ≠ "@" ∧ p.lab ≠ "&") →
    VP.anyLabels l = l.any fun p => p.lab != ""
  | [], _ => rfl
  | p :: l, h => by
    have hp := h p (List.mem_cons_self ..)
    simp only [VP.anyLabels, List.any_cons, (atomic_labels p hp.1 hp.2.1 hp.2.2).1, anyLabels_atomic l fun q hq => h q (List.mem_cons_of_mem _ hq)]

/-- C54: the value of a sequence without labels, none of whose elements is a group: if several values are kept, the array of
them; if only one is, that one; undefined if there is none. Strings, lookaheads and rules whose name starts with an
underscore are not kept (`VP.keeps`). -/
theorem C54_unlabelled_sequence_partial (P : PureOps V) (N : Nat) (L : List GLine) (d : Nat) (h : Bool) (lab : String) (l : List VP)
    (hl : ∀ p ∈ l, VP.Atomic p ∧ p.lab = "") (s : Bytes) (v : V) (s' : Bytes)
    (hy : Yields P N L d (.core h (.seq lab l)) s (.ok (some (v, s')))) :
    ∃ vs, Chain P N L d l s vs s' ∧
      v = (match kept (l.zip vs) with | [] => P.undef | [x] => x | xs => P.arr xs) := by
  cases hy with
  | seq hi =>
    obtain ⟨vs, hc, hw⟩ := items_chain l hi
    refine ⟨vs, hc, ?_⟩
    have hlen := kept_length l vs (chain_length hc) fun p hp => (hl p hp).1
    have hany : VP.anyLabels l = false := by
      rw [anyLabels_atomic l fun p hp => ⟨(hl p hp).1, by rw [(hl p hp).2]; decide, by rw [(hl p hp).2]; decide⟩, List.any_eq_false]
      intro p hp
      simp [(hl p hp).2]
    simp only [List.nil_append] at hw
    unfold formOf at hw
    rw [hany, ← hlen] at hw
    simp only [Bool.false_eq_true, if_false] at hw
    match hk : kept (l.zip vs) with
    | [] =>
      rw [hk] at hw
      simp only [List.length_nil, Nat.not_lt_zero, if_false, gather, hk] at hw
      simpa using hw.symm
    | [x] =>
      rw [hk] at hw
      simp only [List.length_singleton, Nat.lt_irrefl, if_false, gather, hk] at hw
      simpa using hw.symm
    | x :: y :: xs =>
      rw [hk] at hw
      rw [if_pos (by simp)] at hw
      simp only [gather, hk] at hw
      simpa using hw.symm

/-- The labelled ones, with their labels. -/
def labelledOf (l : List (VP × V)) : List (String × V) := (l.filter fun x => x.1.lab != "").map fun x => (x.1.lab, x.2)

/-- Maps are lists of keys and values. -/
structure AstMaps (P : PureOps Ast) : Prop where
  newMap : ∀ k v, P.newMap k v = .map [(k, v)]
  mapSet : ∀ kvs k v, P.mapSet (.map kvs) k v = .ok (.map (kvSet k v kvs))
  isUndef : ∀ kvs, P.isUndef (.map kvs) = false

theorem addAll_labelled {P : PureOps Ast} (hP : AstMaps P) : ∀ (l : List (VP × Ast)) (acc : List (String × Ast)),
    (∀ x ∈ l, VP.Atomic x.1 ∧ x.1.lab ≠ "@" ∧ x.1.lab ≠ "&") → (acc.map (·.1) ++ (labelledOf l).map (·.1)).Nodup →
    l.foldlM (fun a x => addLabelled P a x.1.outLab x.2) (if acc = [] then none else some (Ast.map acc)) =
      .ok (if acc ++ labelledOf l = [] then none else some (.map (acc ++ labelledOf l)))
  | [], acc, _, _ => by simp [labelledOf]; rfl
  | (p, v) :: l, acc, h, hnd => by
    have hp := h (p, v) (List.mem_cons_self ..)
    have hout := (atomic_labels p hp.1 hp.2.1 hp.2.2).2
    have hr : ∀ x ∈ l, VP.Atomic x.1 ∧ x.1.lab ≠ "@" ∧ x.1.lab ≠ "&" := fun x hx => h x (List.mem_cons_of_mem _ hx)
    rw [List.foldlM_cons]
    by_cases h0 : p.lab = ""
    · have hstep : addLabelled P (if acc = [] then none else some (Ast.map acc)) p.outLab v = .ok (if acc = [] then none else some (Ast.map acc)) := by
        unfold addLabelled; rw [hout, if_pos h0]
      have hlab : labelledOf ((p, v) :: l) = labelledOf l := by simp [labelledOf, h0]
      rw [hlab] at hnd ⊢
      rw [hstep]
      exact addAll_labelled hP l acc hr hnd
    · have hlab : labelledOf ((p, v) :: l) = (p.lab, v) :: labelledOf l := by simp [labelledOf, h0]
      rw [hlab] at hnd ⊢
      have hnew : p.lab ∉ acc.map (·.1) := by
        intro hm
        have := (List.nodup_append.mp hnd).2.2 p.lab hm p.lab (by simp)
        exact this rfl
      have hstep : addLabelled P (if acc = [] then none else some (Ast.map acc)) p.outLab v = .ok (some (.map (acc ++ [(p.lab, v)]))) := by
        have hp1 : p.lab ≠ "@" := hp.2.1
        have hp2 : p.lab ≠ "&" := hp.2.2
        unfold addLabelled
        rw [hout, if_neg h0]
        by_cases ha : acc = []
        · subst ha
          simp [hp1, hp2, hP.newMap]
        · rw [if_neg ha]
          have hf : Option.filter (fun r => !P.isUndef r) (some (Ast.map acc)) = some (Ast.map acc) := by simp [Option.filter, hP.isUndef]
          rw [hf]
          simp only [hp1, hp2, if_false, hP.mapSet, kvSet_absent _ _ _ hnew]
          rfl
      rw [hstep]
      have ih := addAll_labelled hP l (acc ++ [(p.lab, v)]) hr (by simpa using hnd)
      rw [if_neg (by simp), List.append_assoc] at ih
      exact ih

/-- C54: the value of a sequence with labels, none of whose elements is a group: a map of exactly the labels and the values
of their elements, in that order. -/
theorem C54_labelled_sequence_partial (P : PureOps Ast) (hP : AstMaps P) (N : Nat) (L : List GLine) (d : Nat) (h : Bool) (lab : String) (l : List VP)
    (hl : ∀ p ∈ l, VP.Atomic p ∧ p.lab ≠ "@" ∧ p.lab ≠ "&") (hex : ∃ p ∈ l, p.lab ≠ "") (hnd : ((l.map VP.lab).filter (· != "")).Nodup)
    (s : Bytes) (v : Ast) (s' : Bytes) (hy : Yields P N L d (.core h (.seq lab l)) s (.ok (some (v, s')))) :
    ∃ vs, Chain P N L d l s vs s' ∧ v = .map (labelledOf (l.zip vs)) ∧ (labelledOf (l.zip vs)).map (·.1) = (l.map VP.lab).filter (· != "") := by
  cases hy with
  | seq hi =>
    obtain ⟨vs, hc, hw⟩ := items_chain l hi
    have hlen := chain_length hc
    have hkeys : (labelledOf (l.zip vs)).map (·.1) = (l.map VP.lab).filter (· != "") := by
      have : ∀ (l : List VP) (vs : List Ast), vs.length = l.length → (labelledOf (l.zip vs)).map (·.1) = (l.map VP.lab).filter (· != "") := by
        intro l
        induction l with
        | nil => intro vs _; rfl
        | cons p l ih =>
          intro vs hv
          cases vs with
          | nil => cases hv
          | cons v vs =>
            have := ih vs (by simpa using hv)
            by_cases h0 : p.lab = ""
            · simpa [labelledOf, h0] using this
            · simpa [labelledOf, h0] using this
      exact this l vs hlen
    refine ⟨vs, hc, ?_, hkeys⟩
    have hany : VP.anyLabels l = true := by
      rw [anyLabels_atomic l hl, List.any_eq_true]
      obtain ⟨p, hp, h0⟩ := hex
      exact ⟨p, hp, by simpa using h0⟩
    have hmem : ∀ x ∈ l.zip vs, x.1 ∈ l := fun x hx => (List.of_mem_zip hx).1
    have hadd := addAll_labelled hP (l.zip vs) [] (fun x hx => hl x.1 (hmem x hx)) (by rw [hkeys]; simpa using hnd)
    rw [if_pos rfl] at hadd
    simp only [List.nil_append] at hw hadd
    have hne : labelledOf (l.zip vs) ≠ [] := by
      intro h0
      rw [h0] at hkeys
      obtain ⟨p, hp, hlab⟩ := hex
      have : p.lab ∈ (l.map VP.lab).filter (· != "") := List.mem_filter.mpr ⟨List.mem_map.mpr ⟨p, hp, rfl⟩, by simpa using hlab⟩
      rw [← hkeys] at this
      cases this
    rw [if_neg hne] at hadd
    unfold formOf at hw
    rw [hany] at hw
    simp only [if_true, gather] at hw
    rw [show addAll P (l.zip vs) = _ from hadd] at hw
    simpa [Except.map] using hw.symm

/-- C54: an optional expression without labels inside has its value, or is undefined. -/
theorem C54_optional_partial (P : PureOps V) (N : Nat) (L : List GLine) (d : Nat) (h : Bool) (p : VP) (hp : p.hasLabels = false) (s : Bytes) (r : VRes V)
    (hy : Yields P N L d (.part h (.opt "" p)) s r) :
    (Yields P N L d (.part h p) s r ∧ r ≠ .ok none) ∨ (Yields P N L d (.part h p) s (.ok none) ∧ r = .ok (some (P.undef, s))) := by
  cases hy with
  | @part _ _ _ _ r0 hc =>
    have hown : ∀ x : VRes V, own P h (.opt "" p) x = x := by
      intro x
      match x with
      | .error e => rfl
      | .ok none => rfl
      | .ok (some (v, s)) => simp [own, VP.outLab, hp]
    rw [hown]
    cases hc with
    | optDone h1 h2 => exact .inl ⟨h1, h2⟩
    | optMiss h1 => exact .inr ⟨h1, rfl⟩

/-! ## Grammars -/

theorem goodNames_of {L : List GLine} (h1 : namedLinesB L = true) (h2 : ((declsOf L).map (·.1)).Nodup)
    (h3 : ∀ d ∈ declsOf L, '[' ∉ d.1.toList) : GoodNames L := ⟨namedLinesB_sound L h1, h2, h3⟩

theorem textsOk_of {L : List GLine} (rx : Bytes → Option Regex) (h : allLinesB (fun e => e.fineB && e.plainB && e.mergesB L && decide (e.nest ≤ 72)) L = true) :
    AllLines (TextOk rx L) L := by
  refine allLinesB_sound (fun e he => ?_) L h
  simp only [Bool.and_eq_true, decide_eq_true_eq] at he
  exact ⟨Expr.fineB_sound (rx := rx) e he.1.1.1 (Expr.plainB_sound e he.1.1.2), he.2, Expr.mergesB_sound he.1.2⟩

/-- The same with regular expressions that compile. -/
theorem textsOk_rx {L : List GLine} {rx : Bytes → Option Regex} (h : allLinesB (fun e => e.fineB && e.mergesB L && decide (e.nest ≤ 72)) L = true)
    (hr : AllLines (Expr.RxOk rx) L) : AllLines (TextOk rx L) L := by
  refine lines_all_and (fun e he hr => ?_) L (allLinesB_sound (C := fun e => (e.fineB && e.mergesB L && decide (e.nest ≤ 72)) = true) (fun e he => he) L h) hr
  simp only [Bool.and_eq_true, decide_eq_true_eq] at he
  exact ⟨Expr.fineB_sound (rx := rx) e he.1.1 hr, he.2, Expr.mergesB_sound he.1.2⟩

/-- The grammar of these lines, built by the library with its own compiler of rule texts, gives this value to this text. -/
def Evaluates (L : List GLine) (text : Bytes) (v : Ast) : Prop :=
  ∀ rx : Bytes → Option Regex, ∃ lines m0, linesOf L = .ok lines ∧ joesonMade = .ok m0 ∧ ∃ k0, ∀ k, k0 ≤ k →
    ∃ m, grammarFromLines (compileRule rx m0.g {} k) "" lines = .ok m ∧
      ∃ k1, ∀ k', k1 ≤ k' → ∃ s, (parseString (Sample.pure.ops Unit) m.g {} [] k' () text).1 = .ok (.value v, s)

theorem evaluates_of {L : List GLine} (hg : GoodNames L) (ht : allLinesB (fun e => e.fineB && e.plainB && e.mergesB L && decide (e.nest ≤ 72)) L = true) {text : Bytes} {v : Ast}
    (k : Nat) (h : vrun Sample.pure text.length L k 1024 (.lines L) text = some (.ok (some (v, [])))) : Evaluates L text v := by
  intro rx
  obtain ⟨lines, m0, h1, h2, k0, h3⟩ := C53_rule_text_values_partial rx {} rfl L hg (textsOk_of rx ht) ""
  refine ⟨lines, m0, h1, h2, k0, fun k' hk' => ?_⟩
  obtain ⟨m, h4, h5⟩ := h3 k' hk'
  refine ⟨m, h4, ?_⟩
  obtain ⟨k1, h6⟩ := h5 Ast Unit Sample.pure (fun _ _ => rfl) {} rfl [] (by simp) () text 1024 _ (vrun_sound k 1024 _ _ _ h)
  refine ⟨k1, fun k'' hk'' => ?_⟩
  rcases h6 k'' hk'' with h | h
  · simpa [Gives] using h
  · exact absurd h.1 (by decide)

namespace Sample

/-- A reference. -/
def refE (s : String) : Prim := .ref (asc s)

/-- `'a'`, `'b'` and `'c'` as the rules `A`, `B` and `C`. -/
def abc : List GLine :=
  [.incl "A" none (.text (.single (.one [] none (.prim (litE "a"))) [])),
   .incl "B" none (.text (.single (.one [] none (.prim (litE "b"))) [])),
   .incl "C" none (.text (.single (.one [] none (.prim (litE "c"))) []))]

/-- A grammar of one text. -/
def oneText (cb : Option Nat) (e : Expr) : List GLine := .alt "" cb (.text e) :: abc

theorem oneText_names (cb : Option Nat) (e : Expr) : GoodNames (oneText cb e) := by
  refine goodNames_of rfl ?_ ?_
  · show (["A", "B", "C"] : List String).Nodup
    decide
  · intro d hd
    have : d.1 ∈ (["A", "B", "C"] : List String) := by
      have := List.mem_map_of_mem (f := (·.1)) hd
      exact this
    revert this
    generalize d.1 = x
    intro hx
    simp only [List.mem_cons, List.not_mem_nil, or_false] at hx
    rcases hx with rfl | rfl | rfl <;> decide

/-- `A B` in parentheses -/
def groupAB : Prim := .group (.single (.cons [] none (.prim (refE "A")) (.one [0x20] none (.prim (refE "B")))) [])

/-- `x:A 'b' y:C?` -/
def labelsText : Expr :=
  .single (.cons [] (some (asc "x")) (.prim (refE "A")) (.cons [0x20] none (.prim (litE "b")) (.one [0x20] (some (asc "y")) (.opt (refE "C"))))) []

/-- `x:(A B) C` -/
def groupLabelText : Expr := .single (.cons [] (some (asc "x")) (.prim groupAB) (.one [0x20] none (.prim (refE "C")))) []

/-- `C ('a' 'b')` -/
def stringsText : Expr :=
  .single (.cons [] none (.prim (refE "C")) (.one [0x20] none
    (.prim (.group (.single (.cons [] none (.prim (litE "a")) (.one [0x20] none (.prim (litE "b")))) []))))) []

/-- `'c' (A B)` -/
def nestedText : Expr := .single (.cons [] none (.prim (litE "c")) (.one [0x20] none (.prim groupAB))) []

/-- `(x:A y:B)?` -/
def optLabelsText : Expr :=
  .single (.one [] none (.opt (.group (.single (.cons [] (some (asc "x")) (.prim (refE "A")) (.one [0x20] (some (asc "y")) (.prim (refE "B")))) [])))) []

/-- `A ('b' | C)` -/
def choiceText : Expr :=
  .single (.cons [] none (.prim (refE "A")) (.one [0x20] none (.prim (.group (.choice [] (.one [] none (.prim (litE "b"))) [0x20]
    (.one (.one [0x20] none (.prim (refE "C")))) [] []))))) []

end Sample

open Sample in
/-- The texts. -/
example : labelsText.text = asc "x:A 'b' y:C?" ∧ groupLabelText.text = asc "x:(A B) C" ∧ stringsText.text = asc "C ('a' 'b')" ∧
    nestedText.text = asc "'c' (A B)" ∧ optLabelsText.text = asc "(x:A y:B)?" ∧ choiceText.text = asc "A ('b' | C)" := by
  refine ⟨?_, ?_, ?_, ?_, ?_, ?_⟩ <;> kernel_rfl

open Sample in
/-- `A 'b' C?` keeps two values, and none is a group. -/
example : Yields pure 3 (oneText none labelsText) 9 (.core false (.seq "" [.name "" "A" false, .lit "" (asc "b"), .opt "" (.name "" "C" false)])) (asc "abc")
    (.ok (some (.arr [.str (asc "a"), .str (asc "c")], []))) := vrun_sound 20 _ _ _ _ (by kernel_rfl)

open Sample in
/-- Its elements. -/
example : ∀ p ∈ [VP.name "" "A" false, .lit "" (asc "b"), .opt "" (.name "" "C" false)], VP.Atomic p ∧ p.lab = "" := by
  simp [VP.Atomic, VP.lab]

open Sample in
/-- The same with labels. -/
example : Yields pure 3 (oneText none labelsText) 9 (.core false (.seq "" [.name "x" "A" false, .lit "" (asc "b"), .opt "y" (.name "" "C" false)])) (asc "abc")
    (.ok (some (.map [("x", .str (asc "a")), ("y", .str (asc "c"))], []))) := vrun_sound 20 _ _ _ _ (by kernel_rfl)

open Sample in
/-- Its elements and its values. -/
example : (∀ p ∈ [VP.name "x" "A" false, .lit "" (asc "b"), .opt "y" (.name "" "C" false)], VP.Atomic p ∧ p.lab ≠ "@" ∧ p.lab ≠ "&") ∧ AstMaps pure := by
  refine ⟨by simp [VP.Atomic, VP.lab], ⟨fun _ _ => rfl, fun _ _ _ => rfl, fun kvs => ?_⟩⟩
  show (Ast.map kvs == Ast.undef) = false
  simp

open Sample in
/-- An optional one that is missing, and one that is there. -/
example : Yields pure 1 (oneText none labelsText) 9 (.part true (.opt "" (.name "" "C" false))) (asc "b") (.ok (some (.undef, asc "b"))) ∧
    Yields pure 1 (oneText none labelsText) 9 (.part true (.opt "" (.name "" "C" false))) (asc "c") (.ok (some (.str (asc "c"), []))) :=
  ⟨vrun_sound 20 _ _ _ _ (by kernel_rfl), vrun_sound 20 _ _ _ _ (by kernel_rfl)⟩

open Sample in
/-- Labels and a callback: `x:A 'b' y:C?` -/
example : Evaluates (oneText (some 0) labelsText) (asc "abc") (.user 3 [.map [("x", .str (asc "a")), ("y", .str (asc "c"))]]) :=
  evaluates_of (oneText_names _ _) (by kernel_rfl) 40 (by kernel_rfl)

open Sample in
/-- The optional one is undefined. -/
example : Evaluates (oneText (some 0) labelsText) (asc "ab") (.user 2 [.map [("x", .str (asc "a")), ("y", .undef)]]) :=
  evaluates_of (oneText_names _ _) (by kernel_rfl) 40 (by kernel_rfl)

open Sample in
/-- C54, the negation: "If a sequence uses labels, it will return a `NativeMap`" (README.md:278). The label of a group that is
a sequence is lost: `x:(A B) C` gives an array. -/
theorem C54_group_label_is_lost : Evaluates (oneText none groupLabelText) (asc "abc")
    (.arr [.arr [.str (asc "a"), .str (asc "b")], .str (asc "c")]) :=
  evaluates_of (oneText_names _ _) (by kernel_rfl) 40 (by kernel_rfl)

open Sample in
/-- C54, the negation: "Strings in a sequence are not captured" (README.md:274). The value of `C ('a' 'b')` is not that of `C` but
undefined. -/
theorem C54_group_of_strings_is_captured : Evaluates (oneText none stringsText) (asc "cab") .undef :=
  evaluates_of (oneText_names _ _) (by kernel_rfl) 40 (by kernel_rfl)

open Sample in
/-- C54, the negation: "If a sequence consists of a single element, it will return the unadorned production of that element"
(README.md:280) when only one is captured. `'c' (A B)` has one element that is captured, and its value is in an array of one. -/
theorem C54_single_group_is_wrapped : Evaluates (oneText none nestedText) (asc "cab") (.arr [.arr [.str (asc "a"), .str (asc "b")]]) :=
  evaluates_of (oneText_names _ _) (by kernel_rfl) 40 (by kernel_rfl)

open Sample in
/-- C54, the negation: "An existential operator (`Element?`) will either be `NativeUndefined` or the production of `Element`"
(README.md:277). `(x:A y:B)?` is a map with the key `@`. -/
theorem C54_optional_group_is_wrapped : Evaluates (oneText none optLabelsText) (asc "ab")
    (.map [("@", .map [("x", .str (asc "a")), ("y", .str (asc "b"))])]) :=
  evaluates_of (oneText_names _ _) (by kernel_rfl) 40 (by kernel_rfl)

open Sample in
/-- C54: a choice with a string among its alternatives is not captured at all: the value of `A ('b' | C)` is that of `A`, also
if `C` is matched. -/
theorem C54_choice_with_string_not_captured : Evaluates (oneText none choiceText) (asc "ac") (.str (asc "a")) :=
  evaluates_of (oneText_names _ _) (by kernel_rfl) 40 (by kernel_rfl)

end Joeson
