import Verif.Props.Values2
import Verif.Props.LeftText
import Verif.Props.Bootstrap
import Verif.Props.WellFormed
import Verif.Proofs.WellFormedCheck
/-!
# C51, C53 and C57 with rules merged by `@:name`
-/

namespace Joeson
open RuleText

namespace Sample

/-- `O("a:A @:R"), I("R", "b:B @:Q"), I("Q", "c:C d:'d'"), ...`: the rule `R` is merged, which merges `Q`. -/
def mergeLines : List GLine :=
  .alt "" none (.text (.single (.cons [] (some (asc "a")) (.prim (refE "A")) (.one [0x20] (some (asc "@")) (.prim (refE "R")))) [])) ::
  .incl "R" none (.text (.single (.cons [] (some (asc "b")) (.prim (refE "B")) (.one [0x20] (some (asc "@")) (.prim (refE "Q")))) [])) ::
  .incl "Q" none (.text (.single (.cons [] (some (asc "c")) (.prim (refE "C")) (.one [0x20] (some (asc "d")) (.prim (litE "d")))) [])) :: abc

/-- `O("@:P"), I("P", "@:R"), I("R", "b:B")`: nothing but merged rules. -/
def mergeOnly : List GLine :=
  .alt "" none (.text (.single (.one [] (some (asc "@")) (.prim (refE "P"))) [])) ::
  .incl "P" none (.text (.single (.cons [] (some (asc "@")) (.prim (refE "R")) (.one [0x20] none (.prim (litE "x")))) [])) ::
  .incl "R" none (.text (.single (.cons [] (some (asc "b")) (.prim (refE "B")) (.one [0x20] none (.prim (litE "y")))) [])) :: abc

/-- A rule that merges itself. -/
def mergeLoop : List GLine :=
  .incl "R" none (.text (.single (.cons [] (some (asc "b")) (.prim (refE "B")) (.one [0x20] (some (asc "@")) (.prim (refE "R")))) [])) :: abc

end Sample

open Sample in
theorem mergeLines_names : GoodNames mergeLines := goodNames_of (by decide +kernel) (by decide +kernel) (by decide +kernel)

open Sample in
/-- The texts. -/
example : linesOf mergeLines = .ok
    [.o "" (.s (asc "a:A @:R")) {}, .i "R" (.o "" (.s (asc "b:B @:Q")) {}) {}, .i "Q" (.o "" (.s (asc "c:C d:'d'")) {}) {},
     .i "A" (.o "" (.s (asc "'a'")) {}) {}, .i "B" (.o "" (.s (asc "'b'")) {}) {}, .i "C" (.o "" (.s (asc "'c'")) {}) {}] := by kernel_rfl

open Sample in
/-- They are supported. -/
example (rx : Bytes → Option Regex) : AllLines (TextOk rx mergeLines) mergeLines := textsOk_of rx (by kernel_rfl)

open Sample in
/-- The labels of three rules in one map. -/
example : Evaluates mergeLines (asc "abcd") (.map [("a", .str (asc "a")), ("b", .str (asc "b")), ("c", .str (asc "c")), ("d", .str (asc "d"))]) :=
  evaluates_of mergeLines_names (by kernel_rfl) 60 (by kernel_rfl)

open Sample in
/-- A text that is nothing but `@:P`: the map of `P` is wrapped, since no sequence uses the label. -/
example : Evaluates mergeOnly (asc "byx") (.map [("@", .map [("b", .str (asc "b"))])]) :=
  evaluates_of (goodNames_of (by decide +kernel) (by decide +kernel) (by decide +kernel)) (by kernel_rfl) 60 (by kernel_rfl)

open Sample in
/-- A rule that merges itself is not supported. -/
example : ¬ Spliceable mergeLoop "R" := by
  intro h
  have key : ∀ nm, Spliceable mergeLoop nm → nm ≠ "R" := by
    intro nm h
    induction h with
    | @intro nm cb e hd hh hm ih =>
      rintro rfl
      have hr : rulesOf mergeLoop = ("R", none, .text (.single (.cons [] (some (asc "b")) (.prim (refE "B")) (.one [0x20] (some (asc "@")) (.prim (refE "R")))) [])) ::
        rulesOf abc := rfl
      rw [hr] at hd
      rcases List.mem_cons.mp hd with h | h
      · cases h
        exact ih "R" (by decide +kernel) rfl
      · have : "R" ∈ (rulesOf abc).map (·.1) := List.mem_map.mpr ⟨_, h, rfl⟩
        exact absurd this (by decide +kernel)
  exact key "R" h rfl

/-- The grammar of rule texts, written as rule texts, is one of those. -/
theorem intention_names : GoodNames Intent.lines := goodNames_of (by decide +kernel) (by decide +kernel) (by decide +kernel)

mutual
theorem line_all_exprs {C : Expr → Prop} : ∀ (l : GLine), (∀ e ∈ Intent.lineExprs l, C e) → l.All C
  | .alt _ _ b, h | .incl _ _ b, h => body_all_exprs b h
theorem body_all_exprs {C : Expr → Prop} : ∀ (b : Body), (∀ e ∈ Intent.bodyExprs b, C e) → b.All C
  | .text e, h => h e (List.mem_singleton.mpr rfl)
  | .rank ls, h => lines_all_exprs ls h
theorem lines_all_exprs {C : Expr → Prop} : ∀ (ls : List GLine), (∀ e ∈ Intent.linesExprs ls, C e) → AllLines C ls
  | [], _ => trivial
  | l :: ls, h => ⟨line_all_exprs l fun e he => h e (List.mem_append_left _ he), lines_all_exprs ls fun e he => h e (List.mem_append_right _ he)⟩
end

theorem intention_supported {rx : Bytes → Option Regex} (h : RxJoeson rx) : AllLines (TextOk rx Intent.lines) Intent.lines := by
  refine lines_all_and (fun e h1 h2 => ⟨h1.1, h1.2, h2⟩) Intent.lines (lines_all_exprs (C := fun e => e.Ok rx ∧ e.nest ≤ 72) _ (intention_texts h)) ?_
  exact allLinesB_sound (f := fun e => e.mergesB Intent.lines) (fun e he => Expr.mergesB_sound he) _ (by kernel_rfl)

/-- The rules of joeson_intention.go that can match nothing. -/
def intentionEps (n : String) : Bool := n == "_"

/-- An order of its rules in which they call each other without progress. -/
def intentionRank : String → Nat
  | "EXPR" => 9
  | "CHOICE" => 8
  | "SEQUENCE" => 7
  | "UNIT" => 6
  | "LABELED" => 5
  | "DECORATED" => 4
  | "PRIMARY" => 3
  | "LABEL" => 2
  | "_PIPE" => 2
  | _ => 1

theorem intention_well_formed : WellFormed Intent.lines (fun n => intentionEps n = true) intentionRank := by
  refine wellFormedB_sound ?_ (by kernel_rfl)
  have hr : linesRes Intent.lines = [reWord, reInt, reAny] := by kernel_rfl
  rw [hr]
  intro r hr s
  simp only [List.mem_cons, List.not_mem_nil, or_false] at hr
  rcases hr with rfl | rfl | rfl
  · exact Intent.solid_run s
  · exact Intent.solid_run s
  · exact Intent.solid_any s

/-- C68: the grammar of rule texts, written as rule texts and built by the library, answers every text with what these texts
say, whatever its callbacks do, unless rules are nested too deeply. -/
theorem C68_intention {V : Type} {rx : Bytes → Option Regex} (h : RxJoeson rx) (P : PureOps V) (ho : ∀ v o, P.origin v o = v) (text : Bytes) :
    ∃ d r, Yields P text.length Intent.lines d (.lines Intent.lines) text r ∧ LibGivesOrDeep rx Intent.lines P text r :=
  C68_answers intention_names (intention_supported h) intention_well_formed P ho text

/-- And what they say is one thing. -/
theorem C68_intention_unique {V : Type} {rx : Bytes → Option Regex} (h : RxJoeson rx) (P : PureOps V) (ho : ∀ v o, P.origin v o = v) (text : Bytes) :
    ∃! r, ∃ d, Yields P text.length Intent.lines d (.lines Intent.lines) text r :=
  C68_outcome intention_names (intention_supported h) intention_well_formed P ho text

/-- The assumptions are met. -/
example (text : Bytes) : ∃ d r, Yields (Sample.pure) text.length Intent.lines d (.lines Intent.lines) text r ∧ LibGivesOrDeep Sample.rxJoeson Intent.lines Sample.pure text r :=
  C68_intention ⟨by kernel_rfl, by kernel_rfl, by kernel_rfl⟩ Sample.pure (fun _ _ => rfl) text

end Joeson
