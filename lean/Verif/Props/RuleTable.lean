import Verif.Model.PrintRules
import Verif.Spec.RuleTable
import Verif.Props.Helpers
import Verif.Props.Native
import Verif.Props.Splice
import Verif.Props.Deep
/-!
# C79: the table of rules
-/

namespace Joeson
open Spec

/-! ## Rows -/

theorem trimEnd_append {b t : Bytes} (hb : b.getLast? ≠ some 0x20) (ht : ∀ x ∈ t, x = 0x20) : trimEnd (b ++ t) = b := by
  unfold trimEnd
  rw [List.reverse_append, List.dropWhile_append_of_pos (by intro x hx; simpa using ht x (List.mem_reverse.mp hx))]
  cases h : b.reverse with
  | nil => simp_all
  | cons y l =>
    have : b.getLast? = some y := by
      rw [← List.head?_reverse, h]; rfl
    rw [List.dropWhile_cons_of_neg (by rintro hy; exact hb (by simpa [this] using hy)), ← h, List.reverse_reverse]

theorem padLeft_fits {w : Nat} {b : Bytes} (h : b.length ≤ w) : ∃ t, padLeft b w = b ++ t ∧ (b ++ t).length = w ∧ ∀ x ∈ t, x = 0x20 := by
  refine ⟨List.replicate (w - b.length) 0x20, ?_, by simp; omega, fun x hx => (List.mem_replicate.mp hx).2⟩
  unfold padLeft
  split
  · congr 2; omega
  · have : w - b.length = 0 := by omega
    simp [this]

theorem readCells_cons {w : Nat} {ws : List Nat} {b rest : Bytes} (hf : CellFits w b) :
    readCells (w :: ws) (padLeft b w ++ (0x20 :: rest)) = b :: readCells ws rest := by
  obtain ⟨t, ht, hlen, hbl⟩ := padLeft_fits hf.short
  rw [ht, readCells, List.take_left' hlen, trimEnd_append hf.noBlank hbl]
  congr 2
  rw [← hlen, ← List.drop_drop, List.drop_left]
  rfl

/-- What a row says. -/
def Row.cells (r : Row) : List Bytes :=
  [r.name, itoa r.id, r.type, if r.capture then asc "y" else asc "n", r.label, joinWith (asc ",") (r.labels.map asc), r.parent, r.content]

/-- Everything fits into its column. -/
structure Row.Fit (r : Row) : Prop where
  name : CellFits 14 r.name
  id : r.id < 1000
  type : CellFits 20 r.type
  label : CellFits 7 r.label
  labels : CellFits 21 (joinWith (asc ",") (r.labels.map asc))
  parent : CellFits 16 r.parent
  content : r.content.getLast? ≠ some 0x20

theorem itoa_fits {n : Nat} (h : n < 1000) : CellFits 3 (itoa n) := by
  have : ∀ n : Nat, n < 1000 → (itoa (n : Int)).length ≤ 3 ∧ (itoa (n : Int)).getLast? ≠ some 0x20 := by decide +kernel
  exact ⟨(this n h).1, (this n h).2⟩

theorem yn_fits (b : Bool) : CellFits 3 (boolToString b) := by
  cases b <;> exact ⟨by decide, by decide⟩

/-- The line of a row, without the newline. -/
def Row.line (r : Row) : Bytes :=
  asc "|   " ++ (padLeft r.name 14 ++ (0x20 :: (padLeft (itoa r.id) 3 ++ (0x20 :: (padLeft r.type 20 ++ (0x20 :: (padLeft (boolToString r.capture) 3 ++
    (0x20 :: (padLeft r.label 7 ++ (0x20 :: (padLeft (joinWith (asc ",") (r.labels.map asc)) 21 ++ (0x20 :: (padLeft r.parent 16 ++ (0x20 ::
      padLeft r.content 30))))))))))))))

theorem Row.print_eq (r : Row) : r.print = r.line ++ asc "\n" := by
  have h1 : asc " " = [0x20] := by decide
  have h2 : asc "|  " ++ [0x20] = asc "|   " := by decide
  unfold Row.print Row.line
  simp only [joinWith, h1, ← h2, List.append_assoc, List.cons_append, List.nil_append]

/-- C79: what is read in a row is what it is about. -/
theorem C79_row_read (r : Row) (h : r.Fit) : readRow r.line = r.cells := by
  unfold readRow Row.line
  rw [show (asc "|   " ++ _ : Bytes).drop 4 = _ from List.drop_left' (by decide)]
  have ht : readCells [] (padLeft r.content 30) = [r.content] := by
    have : ∃ t, padLeft r.content 30 = r.content ++ t ∧ ∀ x ∈ t, x = 0x20 := by
      unfold padLeft
      split
      · exact ⟨_, rfl, fun x hx => (List.mem_replicate.mp hx).2⟩
      · exact ⟨[], by simp, by simp⟩
    obtain ⟨t, h1, h2⟩ := this
    rw [readCells, h1, trimEnd_append h.content h2]
  have e14 : ((14 : Nat) : Int) = 14 := rfl
  rw [show padLeft r.name 14 = padLeft r.name (14 : Nat) from rfl, readCells_cons h.name,
    show padLeft (itoa r.id) 3 = padLeft (itoa r.id) (3 : Nat) from rfl, readCells_cons (itoa_fits h.id),
    show padLeft r.type 20 = padLeft r.type (20 : Nat) from rfl, readCells_cons h.type,
    show padLeft (boolToString r.capture) 3 = padLeft (boolToString r.capture) (3 : Nat) from rfl, readCells_cons (yn_fits _),
    show padLeft r.label 7 = padLeft r.label (7 : Nat) from rfl, readCells_cons h.label,
    show ∀ b, padLeft b 21 = padLeft b (21 : Nat) from fun _ => rfl, readCells_cons h.labels,
    show padLeft r.parent 16 = padLeft r.parent (16 : Nat) from rfl, readCells_cons h.parent, ht]
  rfl

theorem padLeft_mem {b : Bytes} {n : Int} {x : UInt8} (h : x ∈ padLeft b n) : x ∈ b ∨ x = 0x20 := by
  unfold padLeft at h
  split at h
  · rcases List.mem_append.mp h with h | h
    · exact .inl h
    · exact .inr (List.mem_replicate.mp h).2
  · exact .inl h

theorem Row.line_noNewline (r : Row) (h : ∀ c ∈ r.cells, (0x0A : UInt8) ∉ c) : (0x0A : UInt8) ∉ r.line := by
  have hyn : boolToString r.capture = if r.capture then asc "y" else asc "n" := rfl
  simp only [Row.cells, List.mem_cons, List.not_mem_nil, or_false, forall_eq_or_imp, forall_eq] at h
  obtain ⟨h1, h2, h3, h4, h5, h6, h7, h8⟩ := h
  have key : ∀ (b : Bytes) (n : Int), (0x0A : UInt8) ∉ b → (0x0A : UInt8) ∉ padLeft b n := fun b n hb hm =>
    (padLeft_mem hm).elim hb (by decide)
  unfold Row.line
  rw [hyn]
  simp only [List.mem_append, List.mem_cons, not_or]
  exact ⟨by decide, key _ _ h1, by decide, key _ _ h2, by decide, key _ _ h3, by decide, key _ _ h4, by decide, key _ _ h5, by decide, key _ _ h6,
    by decide, key _ _ h7, by decide, key _ _ h8⟩

/-! ## Labels -/

mutual
theorem labelList_sound {lookup : String → Option Nat} {rules : List Node} {follow : String → Except Panic (List String)}
    (hf : ∀ nm l, follow nm = .ok l → ∃ id n, lookup nm = some id ∧ rules[id]? = some n ∧ LabelsOf lookup rules n l) :
    ∀ (n : Node) (l : List String), n.labelList follow = .ok l → LabelsOf lookup rules n l
  | .seq i r ns, l, h => by
    rw [Node.labelList] at h
    exact labelLists_sound hf ns l h i r
  | .exist i m, l, h => by
    rw [Node.labelList] at h
    split at h
    · rename_i hc
      cases h
      exact .own hc.1 (by simp) (by rintro _ _ ⟨⟩; exact hc.2) (by simp)
    · rename_i hc
      refine .opt ?_ (labelList_sound hf m l h)
      by_cases h1 : i.label = ""
      · exact .inl h1
      · by_cases h2 : i.label = "@"
        · exact .inr (.inl h2)
        · by_cases h3 : i.label = "&"
          · exact .inr (.inr h3)
          · exact absurd ⟨h1, h2, h3⟩ hc
  | .ref i nm, l, h => by
    rw [Node.labelList] at h
    split at h
    · rename_i hc
      obtain ⟨id, n, h1, h2, h3⟩ := hf nm l h
      exact .merged hc h1 h2 h3
    · rename_i hc
      cases h
      split <;> rename_i hl
      · exact .none hl (by simp) (by simp)
      · exact .own hl (by simp) (by simp) (by rintro _ _ ⟨⟩; exact hc)
  | .str i _, l, h | .regex i _, l, h | .choice i _, l, h | .look i _, l, h | .not i _, l, h | .pattern i _ _ _ _, l, h => by
    rw [Node.labelList] at h
    cases h
    split <;> rename_i hl
    · exact .none hl (by simp) (by simp)
    · exact .own hl (by simp) (by simp) (by simp)
  | .rule id, l, h => by
    rw [Node.labelList] at h
    cases h
    exact .none rfl (by simp) (by simp)
theorem labelLists_sound {lookup : String → Option Nat} {rules : List Node} {follow : String → Except Panic (List String)}
    (hf : ∀ nm l, follow nm = .ok l → ∃ id n, lookup nm = some id ∧ rules[id]? = some n ∧ LabelsOf lookup rules n l) :
    ∀ (ns : List Node) (l : List String), Node.labelLists follow ns = .ok l → ∀ i r, LabelsOf lookup rules (.seq i r ns) l
  | [], l, h, i, r => by
    rw [Node.labelLists] at h
    cases h
    exact .seqEnd
  | n :: ns, l, h, i, r => by
    rw [Node.labelLists] at h
    cases ha : n.labelList follow with
    | error e => rw [ha] at h; cases h
    | ok a =>
      cases hb : Node.labelLists follow ns with
      | error e => rw [ha, hb] at h; cases h
      | ok b =>
        rw [ha, hb] at h
        cases h
        exact .seqNext (labelList_sound hf n a ha) (labelLists_sound hf ns b hb i r)
end

theorem followList_sound {lookup : String → Option Nat} {rules : List Node} : ∀ (k : Nat) (nm : String) (l : List String),
    followList lookup rules k nm = .ok l → ∃ id n, lookup nm = some id ∧ rules[id]? = some n ∧ LabelsOf lookup rules n l
  | 0, nm, l, h => by
    unfold followList at h
    cases hl : lookup nm with
    | none => rw [hl] at h; cases h
    | some id => rw [hl] at h; cases h
  | k + 1, nm, l, h => by
    unfold followList at h
    cases hl : lookup nm with
    | none => rw [hl] at h; cases h
    | some id =>
      simp only [hl] at h
      cases hr : rules[id]? with
      | none => simp only [hr] at h; cases h
      | some n =>
        simp only [hr] at h
        exact ⟨id, n, rfl, hr, labelList_sound (followList_sound k) n l h⟩

/-! ## The table -/

theorem itoa_noNewline (n : Nat) : (0x0A : UInt8) ∉ itoa n := by
  obtain ⟨ds, _, h2, h3, _⟩ := itoaNat_digits (((n : Int)).natAbs + 1) ((n : Int)).natAbs (by omega)
  unfold itoa
  rw [if_neg (by omega), h3]
  intro h
  obtain ⟨d, hd, he⟩ := List.mem_map.mp h
  have : ∀ d : Nat, d < 10 → digitByte d ≠ 0x0A := by decide
  exact this d (h2 d hd) he

/-- The row of a rule, as it should be. -/
structure RowOf (src : Regex → Bytes) (parent : Nat → ParentOf) (lookup : String → Option Nat) (rules : List Node) (id : Nat) (n : Node) (r : Row) :
    Prop where
  name : r.name = asc n.info.name
  number : r.id = id
  type : r.type = n.goType
  capture : r.capture = n.info.capture
  label : r.label = asc n.info.label
  labels : LabelsOf lookup rules n r.labels
  parent : r.parent = asc (parentColumn n.info.name (parent id))
  content : r.content = n.body src fun id => ((rules[id]?).map fun n => n.info.name).getD ""

theorem ruleRows_sound {src : Regex → Bytes} {parent : Nat → ParentOf} {lookup : String → Option Nat} {rules : List Node} :
    ∀ (l : List Node) (id : Nat) (rows : List Row), ruleRows src parent lookup rules id l = .ok rows →
      rows.length = l.length ∧ ∀ j n r, l[j]? = some n → rows[j]? = some r → RowOf src parent lookup rules (id + j) n r
  | [], id, rows, h => by
    rw [ruleRows] at h
    cases h
    exact ⟨rfl, by simp⟩
  | n :: l, id, rows, h => by
    rw [ruleRows] at h
    cases ha : ruleRow src parent lookup rules id n with
    | error e => rw [ha] at h; cases h
    | ok r =>
      cases hb : ruleRows src parent lookup rules (id + 1) l with
      | error e => rw [ha, hb] at h; cases h
      | ok rs =>
        rw [ha, hb] at h
        cases h
        obtain ⟨h1, h2⟩ := ruleRows_sound l (id + 1) rs hb
        refine ⟨by simp [h1], ?_⟩
        rintro (_ | j) m r' hm hr'
        · cases hm
          cases hr'
          unfold ruleRow at ha
          cases hlab : n.labelList (followList lookup rules rules.length) with
          | error e => rw [hlab] at ha; cases ha
          | ok labels =>
            rw [hlab] at ha
            cases ha
            exact ⟨rfl, rfl, rfl, rfl, rfl, labelList_sound (followList_sound _) n labels hlab, rfl, rfl⟩
        · have := h2 j m r' hm hr'
          rwa [show id + 1 + j = id + (j + 1) by omega] at this

theorem joinLines (x : UInt8) (ls : List Bytes) : ls.flatMap (fun l => l ++ [x]) = [x].intercalate (ls ++ [[]]) := by
  induction ls with
  | nil => rfl
  | cons l ls ih =>
    rw [List.flatMap_cons, ih]
    cases ls <;> simp [List.intercalate, List.intersperse]

/-- C79: the table has a row for every rule, in the order of their numbers, and what is read in the columns is the name, the number,
the type, and so on, if each fits into its column. -/
theorem C79_table_read {src : Regex → Bytes} {parent : Nat → ParentOf} {lookup : String → Option Nat} {rules : List Node} {name : String}
    {self out : Bytes} (h : printRules src parent lookup rules name self = .ok out) (hne : rules ≠ []) :
    ∃ rows : List Row, rows.length = rules.length ∧ (∀ id n r, rules[id]? = some n → rows[id]? = some r → RowOf src parent lookup rules id n r) ∧
      ((∀ r ∈ rows, r.Fit ∧ ∀ c ∈ r.cells, (0x0A : UInt8) ∉ c) → (0x0A : UInt8) ∉ asc name → (0x0A : UInt8) ∉ self →
        readTable out = rows.map Row.cells) := by
  unfold printRules at h
  rw [if_neg (by simpa using hne)] at h
  cases hr : ruleRows src parent lookup rules 0 rules with
  | error e => rw [hr] at h; cases h
  | ok rows =>
    rw [hr] at h
    cases h
    obtain ⟨h1, h2⟩ := ruleRows_sound rules 0 rows hr
    refine ⟨rows, h1, fun id n r hn hr => by simpa using h2 id n r hn hr, fun hfit hname hself => ?_⟩
    have hlines : ∃ l1 l2 l3 l4 l5 l6 l7 : Bytes, (∀ l ∈ [l1, l2, l3, l4, l5, l6, l7], (0x0A : UInt8) ∉ l) ∧
        (asc "+--------------- Grammar.Debug() ----------------------------------\n" ++
        asc "| name         : " ++ bold (asc name) ++ asc "\n" ++ asc "| contentString: " ++ self ++ asc "\n" ++
        asc "| rules        : " ++ itoa rules.length ++ asc "\n" ++ asc "| \n") ++ rowsHead ++ rows.flatMap Row.print ++ asc "| \n" =
        ([l1, l2, l3, l4, l5, l6, l7] ++ (rows.map Row.line ++ [asc "| "])).flatMap (fun l => l ++ [0x0A]) := by
      have hnl : asc "\n" = [0x0A] := by decide
      refine ⟨asc "+--------------- Grammar.Debug() ----------------------------------", asc "| name         : " ++ bold (asc name),
        asc "| contentString: " ++ self, asc "| rules        : " ++ itoa rules.length, asc "| ", rowsHead.take 124,
        asc "|   -------------------------------------------------------------------------------------", ?_, ?_⟩
      · have hit := itoa_noNewline rules.length
        have hb : (0x0A : UInt8) ∉ bold (asc name) := by
          unfold bold paint
          simp only [List.mem_append, not_or]
          exact ⟨⟨⟨by decide, by decide⟩, hname⟩, by decide⟩
        simp only [List.mem_cons, List.not_mem_nil, or_false, forall_eq_or_imp, forall_eq, List.mem_append, not_or]
        exact ⟨by decide, ⟨by decide, hb⟩, ⟨by decide, hself⟩, ⟨by decide, hit⟩, by decide +kernel, by decide +kernel, by decide⟩
      · have hh : rowsHead = rowsHead.take 124 ++ [0x0A] ++ asc "|   -------------------------------------------------------------------------------------" ++ [0x0A] := by
          decide +kernel
        have h0 : asc "+--------------- Grammar.Debug() ----------------------------------\n" =
          asc "+--------------- Grammar.Debug() ----------------------------------" ++ [0x0A] := by decide
        have h4 : asc "| \n" = asc "| " ++ [0x0A] := by decide
        have hrows : rows.flatMap Row.print = (rows.map Row.line).flatMap (fun l => l ++ [0x0A]) := by
          rw [List.flatMap_map]
          congr 1
          funext r
          rw [Row.print_eq, hnl]
        rw [hrows, h0, h4, hnl]
        conv_lhs => rw [hh]
        simp only [List.flatMap_append, List.flatMap_cons, List.flatMap_nil, List.append_nil, List.append_assoc, List.cons_append, List.nil_append]
    obtain ⟨l1, l2, l3, l4, l5, l6, l7, hl, he⟩ := hlines
    show readTable _ = _
    rw [he, joinLines]
    unfold readTable
    rw [List.splitOn_intercalate]
    · rw [List.append_assoc, List.drop_left' (by rfl), List.append_assoc, List.dropLast_append_of_ne_nil (by simp)]
      have : (([asc "| "] ++ [[]] : List Bytes)).dropLast = [asc "| "] := rfl
      rw [this, List.dropLast_concat, List.map_map]
      refine List.map_congr_left fun r hr => ?_
      exact C79_row_read r (hfit r hr).1
    · intro l hm
      rcases List.mem_append.mp hm with hm | hm
      · rcases List.mem_append.mp hm with hm | hm
        · exact hl l hm
        · rcases List.mem_append.mp hm with hm | hm
          · obtain ⟨r, hr, rfl⟩ := List.mem_map.mp hm
            exact r.line_noNewline (hfit r hr).2
          · rw [List.mem_singleton.mp hm]
            decide
      · rw [List.mem_singleton.mp hm]
        exact List.not_mem_nil
    · simp

/-! ## The column of labels, and the type of sequences -/

section
variable {follow : String → Except Panic (List String)} {f : String → Except Panic Bool}

mutual
theorem hasLabels_iff (hf : ∀ nm, (follow nm).map (fun l => !l.isEmpty) = f nm) : ∀ n : Node, (n.labelList follow).map (fun l => !l.isEmpty) = n.hasLabels f
  | .seq i r ns => by
    rw [Node.labelList, Node.hasLabels]
    exact anyLabels_iff hf ns
  | .exist i m => by
    rw [Node.labelList, Node.hasLabels]
    split
    · rfl
    · exact hasLabels_iff hf m
  | .ref i nm => by
    rw [Node.labelList, Node.hasLabels]
    split
    · exact hf nm
    · by_cases h : i.label = "" <;> simp [h, Except.map]
  | .str i _ | .regex i _ | .choice i _ | .look i _ | .not i _ | .pattern i _ _ _ _ => by
    rw [Node.labelList, Node.hasLabels]
    by_cases h : i.label = "" <;> simp [h, Except.map]
  | .rule _ => rfl
theorem anyLabels_iff (hf : ∀ nm, (follow nm).map (fun l => !l.isEmpty) = f nm) : ∀ ns : List Node,
    (Node.labelLists follow ns).map (fun l => !l.isEmpty) = Node.anyLabels f ns
  | [] => rfl
  | n :: ns => by
    rw [Node.labelLists, Node.anyLabels, ← hasLabels_iff hf n, ← anyLabels_iff hf ns]
    cases n.labelList follow with
    | error e => rfl
    | ok a =>
      cases Node.labelLists follow ns with
      | error e => rfl
      | ok b =>
        show Except.ok (!(a ++ b).isEmpty) = Except.ok (!a.isEmpty || !b.isEmpty)
        cases a <;> simp
end

end

theorem followLabels_iff (lookup : String → Option Nat) (rules : List Node) : ∀ (k : Nat) (nm : String),
    (followList lookup rules k nm).map (fun l => !l.isEmpty) = followLabels lookup rules k nm
  | 0, nm => by
    unfold followList followLabels
    cases lookup nm <;> rfl
  | k + 1, nm => by
    unfold followList followLabels
    cases lookup nm with
    | none => rfl
    | some id =>
      simp only
      cases rules[id]? with
      | none => rfl
      | some n => exact hasLabels_iff (followLabels_iff lookup rules k) n

/-- C79: the column of labels is empty iff the library takes the parser for one without labels, and cannot be printed iff that cannot be
decided. -/
theorem C79_labels_decide (lookup : String → Option Nat) (rules : List Node) (k : Nat) (n : Node) :
    (n.labelList (followList lookup rules k)).map (fun l => !l.isEmpty) = n.hasLabels (followLabels lookup rules k) :=
  hasLabels_iff (followLabels_iff lookup rules k) n

/-! ## Printing and panics -/

theorem ruleRows_total {src : Regex → Bytes} {parent : Nat → ParentOf} {lookup : String → Option Nat} {rules : List Node} :
    ∀ (l : List Node) (id : Nat), (∀ n ∈ l, ∃ b, n.hasLabels (followLabels lookup rules rules.length) = .ok b) →
      ∃ rows, ruleRows src parent lookup rules id l = .ok rows
  | [], id, _ => ⟨[], rfl⟩
  | n :: l, id, h => by
    obtain ⟨rs, hrs⟩ := ruleRows_total (src := src) (parent := parent) l (id + 1) fun m hm => h m (List.mem_cons_of_mem _ hm)
    obtain ⟨b, hb⟩ := h n (List.mem_cons_self ..)
    rw [← C79_labels_decide] at hb
    cases hl : n.labelList (followList lookup rules rules.length) with
    | error e => rw [hl] at hb; cases hb
    | ok labels =>
      rw [ruleRows, ruleRow, hl, hrs]
      exact ⟨_, rfl⟩

/-- C79: printing panics only because of labels. -/
theorem C79_prints (src : Regex → Bytes) (parent : Nat → ParentOf) (lookup : String → Option Nat) (rules : List Node) (name : String) (self : Bytes)
    (h : ∀ n ∈ rules, ∃ b, n.hasLabels (followLabels lookup rules rules.length) = .ok b) :
    ∃ out, printRules src parent lookup rules name self = .ok out := by
  unfold printRules
  split
  · exact ⟨_, rfl⟩
  · obtain ⟨rows, hr⟩ := ruleRows_total (src := src) (parent := parent) rules 0 h
    rw [hr]
    exact ⟨_, rfl⟩

/-- C79: a grammar that is printed is the one that is built without printing. -/
theorem C79_same_grammar {src : Regex → Bytes} {parent : Nat → ParentOf} {self : Bytes} {compile : Bytes → Except Panic Node} {name : String}
    {lines : List Line} {m : Made} {out : Bytes} (h : grammarFromLinesPrinting src parent self compile name lines = .ok (m, out)) :
    grammarFromLines compile name lines = .ok m := by
  unfold grammarFromLinesPrinting postinitPrinting at h
  unfold grammarFromLines
  simp only [exceptBindOk, exceptPureOk, Prod.mk.injEq] at h ⊢
  obtain ⟨rank, hr, m', hm, _, _, _, _, _, _, rfl, _⟩ := h
  exact ⟨rank, hr, hm⟩

/-- C79: but printing may panic: the rule `T` refers to a rule that does not exist, and is never used. -/
theorem C79_printing_panics (src : Regex → Bytes) (parent : Nat → ParentOf) (self : Bytes) :
    let compile : Bytes → Except Panic Node := fun s => .ok (if s = asc "a" then .str {} (asc "a") else Sample.spliceRef)
    let lines : List Line := [.o "S" (.s (asc "a")) {}, .i "T" (.s (asc "b")) {}]
    (∃ m, grammarFromLines compile "" lines = .ok m) ∧
      grammarFromLinesPrinting src parent self compile "" lines = .error (.undefinedRef "nosuch") := by
  refine ⟨?_, by kernel_rfl⟩
  have h := C45_unreached_panics.2
  split at h
  · rename_i m hm
    exact ⟨m, hm⟩
  · cases h

section
open RuleText

theorem postinit_labels {A : String → Bool} {i : Info} {incl alts : List Rules} (hpl : (Rules.rank 0 false i incl alts).Plain)
    (hd : Rules.AllDef A (.rank 0 false i incl alts)) (hnd : (addrsOf (Rules.rank 0 false i incl alts).walk).Nodup)
    (hF : ∀ {n s rules}, connect "" {} (.rank 0 false i incl alts) = .ok (n, s) → prepAll s.lookup s.rules [] = .ok rules →
      ∀ nm, A nm = true → ∃ x, followLabels s.lookup rules rules.length nm = .ok x) :
    ∃ n s rules, connect "" {} (walkMonoGrammar (.rank 0 false i incl alts)) = .ok (n, s) ∧ prepAll s.lookup s.rules [] = .ok rules ∧
      ∀ n ∈ rules, ∃ b, n.hasLabels (followLabels s.lookup rules rules.length) = .ok b := by
  obtain ⟨root, s, h1, _, hr, hroot⟩ := connect_total _ hpl hd "" {} hnd (by simp) (by simp [Conn.rules])
  obtain ⟨rules, h2, hr2⟩ := definite_prepAll (lookup := s.lookup) s.rules [] hr (by simp)
  refine ⟨root, s, rules, ?_, h2, fun n hn => definite_labels n (hF h1 h2) (hr2 n hn)⟩
  simp only [walkMonoGrammar, walkMonoRules_plain _ hpl]
  exact h1

/-- The labels of all rules of a grammar written as rule texts can be computed. -/
theorem grammar_labels {compile : Bytes → Except Panic Node} {L : List GLine} (hg : GoodNames L)
    (hm : AllLines (fun e => compile e.text = .ok e.node ∧ e.Merges L) L) (name : String) {lines : List Line} (hl : linesOf L = .ok lines) :
    ∃ rank, rankFromLines compile name lines = .ok rank ∧ ∃ n s rules, connect "" {} (walkMonoGrammar rank) = .ok (n, s) ∧
      prepAll s.lookup s.rules [] = .ok rules ∧ ∀ n ∈ rules, ∃ b, n.hasLabels (followLabels s.lookup rules rules.length) = .ok b := by
  classical
  have hf := lines_fine L hg.distinct
  have hc : AllLines (CompilesDef (fun nm => decide (Spliceable L nm)) compile) L :=
    lines_all_mono (fun e h => ⟨e.node, h.1, expr_plain e, expr_definite e (fun nm hn => by simpa using h.2.1 nm hn) h.2.2⟩) L hm
  have hc' : AllLines (Compiles false compile) L :=
    lines_all_mono (fun e h => ⟨e.node, h.1, expr_like e fun h => (by cases h), expr_plain e⟩) L hm
  have hcv : AllLines (CompilesV (Labelled L) compile) L := lines_all_mono (fun e h => ⟨h.1, fun nm hn => (h.2.1 nm hn).labelled⟩) L hm
  have hnd : (({ name := name } : Rank).names ++ inclNames L).Nodup := by
    simpa [Rank.names] using (inclNames_sub L).nodup hg.distinct
  obtain ⟨r, n, h1, hle, hfr, _, hdi, hda⟩ := rankLines_total L hc hf hl { name := name } hnd 1 1 (Nat.le_refl _)
    ⟨by simp [Rank.addrs, Rules.walkList], by simp [Rank.addrs, Rules.walkList], by simp [Rank.addrs, Rules.walkList]⟩ trivial trivial
  obtain ⟨incl, alts, e1, e2, t1, t2, _⟩ := rankLines_tree L hc' hf hl hnd h1
  simp only [List.nil_append] at e1 e2
  rw [← e1] at t1
  rw [← e2] at t2
  obtain ⟨incl', alts', e1', e2', v1, v2, _⟩ := rankLines_treeV L hcv hf hl hnd h1
  simp only [List.nil_append] at e1' e2'
  rw [← e1'] at v1
  rw [← e2'] at v2
  have hI := treeI_plain L t1
  have hA := treeA_plain L t2
  have hpl : (Rules.rank 0 false { name := r.name } r.incl r.alts).Plain :=
    .rank (fun x hx => (hI x hx).1) (fun x hx => (hA x hx).1) rfl (fun x hx => (hI x hx).2.1) (fun x hx => (hA x hx).2.1)
  refine ⟨.rank 0 false { name := r.name } r.incl r.alts, ?_, postinit_labels hpl ⟨hdi, hda⟩ (by
    have := hfr.nodup
    simpa [Rank.addrs, Rules.walk, addrsOf] using this) (fun hconn hprep nm hnm =>
      connect_follow t1 t2 v1 v2 hg.auto hg.distinct (lines_rules_all L (lines_all_mono (fun e h => h.2.2) L hm)) hconn hprep (by simpa using hnm))⟩
  unfold rankFromLines
  simp only [exceptBindOk, exceptPureOk, Prod.exists]
  exact ⟨r, n, h1, rfl⟩

/-- C79: grammars written as rule texts can be printed; those that are built without printing are built with it. -/
theorem C79_rule_texts_print (rx : Bytes → Option Regex) (tr0 : Trace) (L : List GLine) (htr0 : TraceOk tr0 L)
    (hg : GoodNames L) (hL : AllLines (TextFits rx L) L) (name : String) (src : Regex → Bytes) (parent : Nat → ParentOf) (self : Bytes) :
    ∃ lines m0, linesOf L = .ok lines ∧ joesonMade = .ok m0 ∧ ∃ k0, ∀ k, k0 ≤ k → ∀ m,
      grammarFromLines (compileRule rx m0.g tr0 k) name lines = .ok m →
        ∃ out, grammarFromLinesPrinting src parent self (compileRule rx m0.g tr0 k) name lines = .ok (m, out) := by
  obtain ⟨lines, hl⟩ := linesOf_total L hg.named
  obtain ⟨m0, hm0, _⟩ := Joe.made
  refine ⟨lines, m0, hl, hm0, ?_⟩
  obtain ⟨k0, hk0⟩ := rule_texts_ideal rx tr0 L htr0 hL hm0
  refine ⟨k0, fun k hk m hm => ?_⟩
  obtain ⟨c', hcc, hc'⟩ := hk0 k hk
  obtain ⟨rank, hr, n, s, rules, h1, h2, h3⟩ := grammar_labels hg hc' name hl
  have hr' : rankFromLines (compileRule rx m0.g tr0 k) name lines = .ok rank := by
    rw [← hr]
    rcases (show rankFromLines (compileRule rx m0.g tr0 k) name lines = rankFromLines c' name lines ∨
        rankFromLines (compileRule rx m0.g tr0 k) name lines = .error .stackOverflow by
      unfold rankFromLines
      exact bindSame (rankLines_same hcc lines _ _) fun a => .inl rfl) with h | h
    · exact h
    · unfold grammarFromLines at hm
      rw [h] at hm
      cases hm
  obtain ⟨out, ho⟩ := C79_prints src parent s.lookup rules name self h3
  have hm' : postinit rank = .ok m := by
    unfold grammarFromLines at hm
    rw [hr'] at hm
    exact hm
  refine ⟨out, ?_⟩
  unfold grammarFromLinesPrinting postinitPrinting
  simp only [exceptBindOk, exceptPureOk, Prod.exists]
  exact ⟨rank, hr', m, hm', n, s, h1, rules, h2, out, ho, rfl⟩

end

namespace Sample

/-- `S: x:'a' @:T`, `T: y:'b'? z:S`, and a rule that is not captured -/
def tableRules : List Node :=
  [.seq { name := "S" } .object [.str { label := "x" } (asc "a"), .ref { label := "@" } "T"],
    .seq { name := "T" } .object [.exist { label := "y" } (.str {} (asc "b")), .ref { label := "z" } "S"],
    .str { name := "_U", capture := false } (asc "c")]

def tableLookup : String → Option Nat
  | "S" => some 0
  | "T" => some 1
  | "_U" => some 2
  | _ => none

/-- `S` is an alternative of the grammar, the others are included by `S`. -/
def tableParent : Nat → ParentOf
  | 0 => .rank "" true
  | 1 => .rank "S" false
  | _ => .other

/-- A name that is too long -/
def wideRules : List Node := [.str { name := "a.name.of.20.letters" } (asc "a")]

end Sample

open Sample in
/-- What is read in a table of three rules. -/
example : (match printRules (fun _ => []) tableParent tableLookup tableRules "G" (asc "G") with
    | .ok out => readTable out
    | .error _ => []) =
      [[asc "S", asc "0", asc "*joeson.sequence", asc "y", [], asc "x,y,z", asc "__grammar__", blue (asc "(") ++ cyan (asc "x:") ++ green (asc "'a'") ++ asc " " ++ cyan (asc "@:") ++ red (asc "T") ++ blue (asc ")")],
       [asc "T", asc "1", asc "*joeson.sequence", asc "y", [], asc "y,z", asc "S", blue (asc "(") ++ cyan (asc "y:") ++ green (asc "'b'") ++ blue (asc "?") ++ asc " " ++ cyan (asc "z:") ++ red (asc "S") ++ blue (asc ")")],
       [asc "_U", asc "2", asc "joeson.str", asc "n", [], [], asc "_U", green (asc "'c'")]] := by
  decide +kernel

open Sample in
/-- C79: a name that does not fit into its column makes the row unreadable. -/
theorem C79_wide_name : (match printRules (fun _ => []) (fun _ => .none) (fun _ => none) wideRules "G" (asc "G") with
    | .ok out => readTable out
    | .error _ => []) =
      [[asc "a.name.of.20.l", asc "tte", asc "s 0   joeson.str", [], asc "  y", [], asc "      -", asc "      " ++ green (asc "'a'")]] := by
  decide +kernel

open Sample in
/-- The labels of all rules can be computed. -/
example : ∀ n ∈ tableRules, ∃ b, n.hasLabels (followLabels tableLookup tableRules tableRules.length) = .ok b := by
  intro n hn
  simp only [tableRules, List.mem_cons, List.not_mem_nil, or_false] at hn
  rcases hn with rfl | rfl | rfl
  · exact ⟨true, by decide +kernel⟩
  · exact ⟨true, by decide +kernel⟩
  · exact ⟨false, by decide +kernel⟩

open Sample in
/-- Grammars of any depth meet the conditions of `C79_rule_texts_print`. -/
example (n : Nat) : GoodNames (deepTextLines n) ∧ RuleText.AllLines (TextFits (fun _ => none) (deepTextLines n)) (deepTextLines n) :=
  ⟨deepTextLines_names n, deepTextLines_fit _ n⟩

end Joeson
