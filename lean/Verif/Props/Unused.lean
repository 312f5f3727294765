import Verif.Proofs.Unused4
import Verif.Props.Renamed
import Verif.Props.Build
/-!
# C85: adding an included line that nothing mentions changes no parse
-/

namespace Joeson
variable {compile : Bytes → Except Panic Node} {V H : Type}

/-- C85 on lines. Take lines and put one more `I` line among them, anywhere, under a name that is not included yet. It may contain lines itself. If no
rule of the others mentions a name that it defines, every text is parsed the same way by the two grammars: the same value or error, the same callbacks,
the same panic, the same tracing. -/
theorem C85_unused_line (hc : ∀ s n, compile s = .ok n → n.Plain) (name : String) (hname : name ≠ "") (A B : List Line) (nm : String) (c : Line) (o : RuleOpts)
    (hl : ∀ l ∈ A ++ .i nm c o :: B, l.Plain) (hw : ∀ l ∈ A ++ B, l.wrapped = false) (hfresh : nm ∉ includedNames (A ++ B)) (m m' : Made)
    (h : grammarFromLines compile name (A ++ B) = .ok m) (h' : grammarFromLines compile name (A ++ .i nm c o :: B) = .ok m')
    (hX : ∀ next x next', getRule compile nm name o next c = .ok (x, next') → ∀ e ∈ m.conn.id2rule, ∀ r ∈ e.2.2.refs, r ∉ x.walk.map (·.2))
    (ops : Ops V H) (tr : Trace) (opts : List ParseOption) (k : Nat) (st : H) (text : Bytes) :
    SameWay id (parseString ops m.g tr opts k st text) (parseString ops m'.g tr opts k st text) := by
  obtain ⟨n0, k0, hin⟩ := within_of_line hc hname hl hfresh h h' hX
  have hg : m.g.Built := built_of_lines hc name (A ++ B) (fun l hm => hl l ((List.mem_append.mp hm).elim (List.mem_append_left _)
    fun hm => List.mem_append_right _ (List.mem_cons_of_mem _ hm))) hw m h
  exact C85_same_parse ops ops.nameBlind_id m.g m'.g hg hin tr opts k st text

/-- C85 on lines, for a line with a rule text. The others need only not mention its name. -/
theorem C85_unused_text (hc : ∀ s n, compile s = .ok n → n.Plain) (name : String) (hname : name ≠ "") (A B : List Line) (nm : String) (s : Bytes) (o : RuleOpts)
    (hl : ∀ l ∈ A ++ B, l.Plain) (hw : ∀ l ∈ A ++ B, l.wrapped = false) (hfresh : nm ∉ includedNames (A ++ B)) (m m' : Made)
    (h : grammarFromLines compile name (A ++ B) = .ok m) (h' : grammarFromLines compile name (A ++ .i nm (.s s) o :: B) = .ok m')
    (hX : ∀ e ∈ m.conn.id2rule, nm ∉ e.2.2.refs) (ops : Ops V H) (tr : Trace) (opts : List ParseOption) (k : Nat) (st : H) (text : Bytes) :
    SameWay id (parseString ops m.g tr opts k st text) (parseString ops m'.g tr opts k st text) := by
  refine C85_unused_line hc name hname A B nm (.s s) o (fun l hm => ?_) hw hfresh m m' h h' (fun next x next' hx e he r hr hrx => ?_) ops tr opts k st text
  · rcases List.mem_append.mp hm with hm | hm
    · exact hl l (List.mem_append_left _ hm)
    · rcases List.mem_cons.mp hm with rfl | hm
      · exact .i .s
      · exact hl l (List.mem_append_right _ hm)
  · have hxn := (getRule_plain hc (.s s) .s hx).2.1
    simp only [getRule, exceptBindOk, exceptPureOk, Prod.mk.injEq] at hx
    obtain ⟨p, hp, y, hy, rfl, rfl⟩ := hx
    obtain ⟨-, rfl⟩ := getRuleEnd_ok hy
    simp only [Rules.setInfo, Rules.walk, List.map_cons, List.map_nil, List.mem_singleton] at hrx
    simp only [Rules.setInfo, Rules.name] at hxn
    exact hX e he (by rw [← hxn, ← hrx]; exact hr)

/-! The left recursive difference, with a group of rules put between that of its digits and its alternatives. `D` of the group mentions `N`. -/

namespace Sample

private def before : List Line := [.i "N" (.c false (.choice {} [lit "1", lit "2"])) {}]
private def after : List Line := [.o "E" (.c false (.seq {} .array [.exist {} (.seq {} .array [ref "E", lit "-"]), ref "N"])) {}]
private def group : Line := .a [.i "D" (.c false (.seq {} .array [ref "N", ref "N"])) {}, .o "F" (.c false (ref "D")) {}]
private def none' : Bytes → Except Panic Node := fun _ => .error .notModelled

private theorem before_after : ∃ m, grammarFromLines none' "G" (before ++ after) = .ok m ∧
    m.conn.id2rule.map (·.2.2.refs) = [[], ["E", "N"]] := ⟨_, rfl, rfl⟩
private theorem with_group : ∃ m, grammarFromLines none' "G" (before ++ .i "X" group {} :: after) = .ok m ∧ m.g.numRules = 5 := ⟨_, rfl, rfl⟩

private theorem group_names : ∀ next x next', getRule none' "X" "G" {} next group = .ok (x, next') → x.walk.map (·.2) = ["D", "F", "X"] := by
  intro next x next' h
  cases h
  rfl

example : ∃ m m', grammarFromLines none' "G" (before ++ after) = .ok m ∧ grammarFromLines none' "G" (before ++ .i "X" group {} :: after) = .ok m' ∧
    ∀ (ops : Ops V H) (tr : Trace) (opts : List ParseOption) (k : Nat) (st : H) (text : Bytes),
      SameWay id (parseString ops m.g tr opts k st text) (parseString ops m'.g tr opts k st text) := by
  obtain ⟨m, h, hr⟩ := before_after
  obtain ⟨m', h', -⟩ := with_group
  refine ⟨m, m', h, h', fun ops tr opts k st text => ?_⟩
  refine C85_unused_line (fun s n hn => by cases hn) "G" (by decide) before after "X" group {} ?_ ?_ (by decide) m m' h h' ?_ ops tr opts k st text
  · intro l hl
    simp only [before, after, group, List.cons_append, List.nil_append, List.mem_cons, List.not_mem_nil, or_false] at hl
    rcases hl with rfl | rfl | rfl
    · exact .i (.c (.choice (by simp [lit, Node.Plain.str]) (by simp)))
    · exact .i (.a (by
        simp only [List.mem_cons, List.not_mem_nil, or_false]
        rintro l (rfl | rfl)
        · exact .i (.c (.seq (by simp [ref, Node.Plain.ref])))
        · exact .o (.c .ref)))
    · refine .o (.c (.seq ?_))
      simp only [List.mem_cons, List.not_mem_nil, or_false]
      rintro c (rfl | rfl)
      · exact .exist (.seq (by simp [ref, lit, Node.Plain.ref, Node.Plain.str]))
      · exact .ref
  · intro l hl
    simp only [before, after, List.cons_append, List.nil_append, List.mem_cons, List.not_mem_nil, or_false] at hl
    rcases hl with rfl | rfl <;> rfl
  · intro next x next' hx e he r hr'
    rw [group_names next x next' hx]
    have : e.2.2.refs ∈ m.conn.id2rule.map (·.2.2.refs) := List.mem_map_of_mem (f := fun e => e.2.2.refs) he
    rw [hr] at this
    simp only [List.mem_cons, List.not_mem_nil, or_false] at this
    rcases this with h0 | h0
    · rw [h0] at hr'; cases hr'
    · rw [h0] at hr'
      intro hm
      simp only [List.mem_cons, List.not_mem_nil, or_false] at hr' hm
      rcases hr' with rfl | rfl <;> revert hm <;> decide

/-! Rule texts that are taken literally. -/

private def literal : Bytes → Except Panic Node := fun b => .ok (.str {} b)

private theorem literal_plain : ∀ s n, literal s = .ok n → n.Plain := fun s n h => by cases h; exact .str

private theorem texts : ∃ m, grammarFromLines literal "G" (before ++ after) = .ok m ∧ m.conn.id2rule.map (·.2.2.refs) = [[], ["E", "N"]] := ⟨_, rfl, rfl⟩
private theorem texts_more : ∃ m, grammarFromLines literal "G" (before ++ .i "X" (.s (asc "zz")) {} :: after) = .ok m ∧ m.g.numRules = 3 := ⟨_, rfl, rfl⟩

example : ∃ m m', grammarFromLines literal "G" (before ++ after) = .ok m ∧ grammarFromLines literal "G" (before ++ .i "X" (.s (asc "zz")) {} :: after) = .ok m' ∧
    ∀ (ops : Ops V H) (tr : Trace) (opts : List ParseOption) (k : Nat) (st : H) (text : Bytes),
      SameWay id (parseString ops m.g tr opts k st text) (parseString ops m'.g tr opts k st text) := by
  obtain ⟨m, h, hr⟩ := texts
  obtain ⟨m', h', -⟩ := texts_more
  refine ⟨m, m', h, h', fun ops tr opts k st text => ?_⟩
  refine C85_unused_text literal_plain "G" (by decide) before after "X" (asc "zz") {} ?_ ?_ (by decide) m m' h h' ?_ ops tr opts k st text
  · intro l hl
    simp only [before, after, List.cons_append, List.nil_append, List.mem_cons, List.not_mem_nil, or_false] at hl
    rcases hl with rfl | rfl
    · exact .i (.c (.choice (by simp [lit, Node.Plain.str]) (by simp)))
    · refine .o (.c (.seq ?_))
      simp only [List.mem_cons, List.not_mem_nil, or_false]
      rintro c (rfl | rfl)
      · exact .exist (.seq (by simp [ref, lit, Node.Plain.ref, Node.Plain.str]))
      · exact .ref
  · intro l hl
    simp only [before, after, List.cons_append, List.nil_append, List.mem_cons, List.not_mem_nil, or_false] at hl
    rcases hl with rfl | rfl <;> rfl
  · intro e he hm
    have : e.2.2.refs ∈ m.conn.id2rule.map (·.2.2.refs) := List.mem_map_of_mem (f := fun e => e.2.2.refs) he
    rw [hr] at this
    simp only [List.mem_cons, List.not_mem_nil, or_false] at this
    rcases this with h0 | h0 <;> rw [h0] at hm <;> revert hm <;> decide

end Sample
end Joeson
