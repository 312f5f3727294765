import Verif.Proofs.BuildCost
import Verif.Props.Values2
/-!
# C75: how much work it is to build a grammar
-/

namespace Joeson
open RuleText

/-- C75 for any way of compiling the texts that is right: the exact number of visits of the first pass of `postinit`. Every
parser is visited twice as often as the one it is in. -/
theorem C75_visits_exact (compile : Bytes → Except Panic Node) (L : List GLine) (hg : GoodNames L)
    (hc : AllLines (fun e => compile e.text = .ok e.node) L) (name : String) (lines : List Line) (hl : linesOf L = .ok lines)
    (hm : ∃ m, grammarFromLines compile name lines = .ok m) : buildVisits compile name lines = .ok (grammarVisits L) := by
  obtain ⟨m, h⟩ := hm
  unfold grammarFromLines at h
  simp only [exceptBindOk] at h
  obtain ⟨x, hx, -⟩ := h
  unfold buildVisits
  rw [hx]
  unfold rankFromLines at hx
  simp only [exceptBindOk, exceptPureOk, Prod.exists] at hx
  obtain ⟨r, n, h1, rfl⟩ := hx
  have hnd : (({ name := name } : Rank).names ++ inclNames L).Nodup := by
    simpa [Rank.names] using (inclNames_sub L).nodup hg.distinct
  have hcb : AllLines (Compiles false compile) L :=
    lines_all_mono (fun e h1 => ⟨e.node, h1, expr_like e (fun h => by cases h), expr_plain e⟩) L hc
  obtain ⟨incl, alts, e1, e2, t1, t2, _⟩ := rankLines_tree L hcb (lines_fine L hg.distinct) hl hnd h1
  simp only [List.nil_append] at e1 e2
  rw [← e1] at t1
  rw [← e2] at t2
  have hI := treeI_plain L t1
  have hA := treeA_plain L t2
  have hpl : (Rules.rank 0 false { name := r.name } r.incl r.alts).Plain :=
    .rank (fun x hx => (hI x hx).1) (fun x hx => (hA x hx).1) rfl (fun x hx => (hI x hx).2.1) (fun x hx => (hA x hx).2.1)
  show Except.ok (walkMonoGrammarVisits _) = _
  rw [walkMonoGrammarVisits, walkMonoRules_plain _ hpl, walkMonoRulesVisits_plain _ hpl, lines_visits L t1 t2 _ (by rw [Rules.depth]; omega) (by rw [Rules.depth]; omega),
    grammarVisits]
  congr 1
  omega

/-- C75 with the library's own compiler of rule texts. -/
theorem C75_library_visits (rx : Bytes → Option Regex) (tr0 : Trace) (htr0 : tr0.stack = false) (L : List GLine)
    (hg : GoodNames L) (hL : AllLines (TextOk rx L) L) (name : String) :
    ∃ lines m0, linesOf L = .ok lines ∧ joesonMade = .ok m0 ∧ ∃ k0, ∀ k, k0 ≤ k →
      (∃ m, grammarFromLines (compileRule rx m0.g tr0 k) name lines = .ok m) ∧
      buildVisits (compileRule rx m0.g tr0 k) name lines = .ok (grammarVisits L) := by
  obtain ⟨lines, m0, hl, hm0, k1, h1⟩ := C51_rule_text_grammar_partial rx tr0 htr0 L hg hL name
  refine ⟨lines, m0, hl, hm0, ?_⟩
  have hex : AllLines (fun e => ∃ k, ∀ k', k ≤ k' → compileRule rx m0.g tr0 k' e.text = .ok e.node) L := by
    refine lines_all_mono (fun e he => ?_) L hL
    obtain ⟨m, hm, k, hk⟩ := C47_rule_text_compiles_partial rx tr0 htr0 e he.ok he.nest
    cases hm0.symm.trans hm
    refine ⟨k, fun k' hk' => ?_⟩
    unfold compileRule
    rw [hk k' hk']
  obtain ⟨k2, h2⟩ := lines_all_bound (fun k k' e hkk h k'' h'' => h k'' (Nat.le_trans hkk h'')) L hex
  refine ⟨max k1 k2, fun k hk => ?_⟩
  obtain ⟨m, hm, -⟩ := h1 k (by omega)
  exact ⟨⟨m, hm⟩, C75_visits_exact _ L hg (lines_all_mono (fun e h => h k (Nat.le_refl _)) L (h2 k (by omega))) name lines hl ⟨m, hm⟩⟩

/-- C75: exponential in how deep expressions are nested, and in nothing else. -/
theorem C75_visits_bounds (p : Pat) : 2 ^ p.deep ≤ p.visits + 1 ∧ p.visits ≤ p.size * 2 ^ p.deep :=
  ⟨visits_ge p, visits_le p p.deep (Nat.le_refl _)⟩

theorem notNest_text (n : Nat) : (notNest n).text.length = 3 * n + 3 := by
  induction n with
  | zero => rfl
  | succ n ih =>
    simp only [notNest, Expr.text, Units.text, Deco.text, Prim.text, labText, List.length_append, List.length_cons, List.length_nil, ih]
    omega

theorem notNest_visits (n : Nat) : (notNest n).pat.visits = 2 ^ (n + 1) - 1 ∧ (notNest n).pat.size = n + 1 := by
  induction n with
  | zero => exact ⟨rfl, rfl⟩
  | succ n ih =>
    have e : (notNest (n + 1)).pat = .not (notNest n).pat := rfl
    rw [e, Pat.visits, Pat.size, ih.1, ih.2, Nat.pow_succ 2 (n + 1)]
    have := @Nat.one_le_two_pow (n + 1)
    omega

theorem notLines_names (n : Nat) : GoodNames (notLines n) := by
  refine goodNames_of rfl ?_ ?_
  · show (["S"] : List String).Nodup
    decide
  · intro d hd
    have : d.1 ∈ (["S"] : List String) := List.mem_map_of_mem (f := (·.1)) hd
    simp only [List.mem_singleton] at this
    rw [this]
    decide

theorem notNest_ok (rx : Bytes → Option Regex) (n : Nat) : (notNest n).Ok rx ∧ (notNest n).nest = n ∧ (notNest n).NoAt := by
  have nolab : LabOk none := fun w h => by cases h
  have hother : OtherLabel none := fun w h => by cases h
  induction n with
  | zero =>
    refine ⟨⟨⟨blank_nil, nolab, ?_⟩, blank_nil, fun _ => rfl⟩, rfl, hother, trivial⟩
    intro p hp
    simp only [List.mem_singleton] at hp
    subst hp
    exact ⟨.inl (by decide), fun _ => by decide⟩
  | succ n ih =>
    refine ⟨⟨⟨blank_nil, nolab, ih.1⟩, blank_nil, fun _ => rfl⟩, ?_, hother, ih.2.2⟩
    show (notNest n).nest + 1 = n + 1
    rw [ih.2.1]

/-- C75 is false as stated: for a rule text of `3 * n + 3` characters, `!(!(…'a'…))`, which the library accepts, building the grammar
takes `2 ^ (n + 3) - 1` visits. -/
theorem C75_exponential (rx : Bytes → Option Regex) (tr0 : Trace) (htr0 : tr0.stack = false) (n : Nat) (hn : n ≤ 72) (name : String) :
    ∃ m0, joesonMade = .ok m0 ∧ (notNest n).text.length = 3 * n + 3 ∧ ∃ k0, ∀ k, k0 ≤ k →
      (∃ m, grammarFromLines (compileRule rx m0.g tr0 k) name [.o "S" (.o "" (.s (notNest n).text) {}) {}] = .ok m) ∧
      buildVisits (compileRule rx m0.g tr0 k) name [.o "S" (.o "" (.s (notNest n).text) {}) {}] = .ok (2 ^ (n + 3) - 1) := by
  have ho := notNest_ok rx n
  obtain ⟨lines, m0, hl, hm0, k0, h⟩ := C75_library_visits rx tr0 htr0 (notLines n) (notLines_names n) ⟨.plain ho.1 (by omega) ho.2.2, trivial⟩ name
  have hl' : linesOf (notLines n) = .ok [.o "S" (.o "" (.s (notNest n).text) {}) {}] := rfl
  cases hl'.symm.trans hl
  have hv : grammarVisits (notLines n) = 2 ^ (n + 3) - 1 := by
    have := (notNest_visits n).1
    have h1 := @Nat.one_le_two_pow (n + 1)
    rw [grammarVisits, notLines, visitsLines, visitsLines, GLine.visits, Body.visits, this, show n + 3 = (n + 1) + 2 from rfl, Nat.pow_add 2 (n + 1) 2]
    omega
  rw [← hv]
  exact ⟨m0, hm0, notNest_text n, k0, h⟩

/-- With three parentheses. -/
example : (notNest 3).text = asc "!(!(!('a')))" ∧ 2 ^ (3 + 3) - 1 = 63 := ⟨rfl, rfl⟩

/-- With thirty, a text of 93 characters: more than 8 billion. -/
example : (notNest 30).text.length = 93 ∧ 2 ^ (30 + 3) - 1 = 8589934591 := ⟨rfl, rfl⟩

open Sample in
/-- For the grammar of sums of C51, which has 13 parsers, the grammar included. -/
example : grammarVisits sumLines = 123 := by decide +kernel

end Joeson
