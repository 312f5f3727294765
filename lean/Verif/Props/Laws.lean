import Verif.Props.Lang
import Verif.Props.Values2
import Verif.Proofs.Laws
/-!
# C74: rewriting rule texts by laws
-/

namespace Joeson
open RuleText

variable {V H : Type}

/-- Two answers of `ParseString` to a text that agree about it: two values, two `ParseError`s at the same place, or nil twice. -/
def Alike (o o' : Out (Outcome V × St V H)) : Prop :=
  (∃ v s v' s', o = .ok (.value v, s) ∧ o' = .ok (.value v', s')) ∨
  (∃ e s e' s', o = .ok (.error e, s) ∧ o' = .ok (.error e', s') ∧ s.pos = s'.pos) ∨
  (∃ s s', o = .ok (.nil, s) ∧ o' = .ok (.nil, s'))

/-- C74: in a grammar with distinct names, an expression may be rewritten by the laws: it fails on the same texts, and on the others
leaves the same rest. -/
theorem C74_laws_hold (L : List GLine) (hg : GoodNames L) (p q : Pat) (h : Rewrites p q) (d : Nat) (s : Bytes) (r : Option Bytes) :
    Parses L d (.pat p) s r ↔ Parses L d (.pat q) s r :=
  rewrites_same hg.distinct h d s r

/-- C74: a grammar some or all of whose texts are rewritten by the laws matches the same, recursion included. -/
theorem C74_rewritten_grammar (L L' : List GLine) (hg : GoodNames L) (h : RewritesLines L L') (d : Nat) (text : Bytes) (x : Option Bytes) :
    Parses L d (.lines L) text x ↔ Parses L' d (.lines L') text x :=
  ⟨fun hp => rewritten_parses h (rw_lines_names h ▸ hg.distinct) hp (.lines h),
    fun hp => rewritten_parses (rw_lines_symm h) hg.distinct hp (.lines (rw_lines_symm h))⟩

theorem goodNames_rewritten {L L' : List GLine} (h : RewritesLines L L') (hg : GoodNames L) : GoodNames L' := by
  refine ⟨rw_lines_named h hg.named, rw_lines_names h ▸ hg.distinct, fun d hd => ?_⟩
  have : d.1 ∈ (declsOf L).map (·.1) := by rw [rw_lines_names h]; exact List.mem_map_of_mem hd
  obtain ⟨d', hd', e⟩ := List.mem_map.mp this
  rw [← e]
  exact hg.noBracket d' hd'

/-- Where an error is reported follows from what is left. -/
theorem alike_of {text : Bytes} {x : Option Bytes} {o o' : Out (Outcome V × St V H)} (h : Recognises text x o) (h' : Recognises text x o') : Alike o o' := by
  cases x with
  | none =>
    simp only [Recognises] at h h'
    split at h
    · rename_i ht
      rw [if_pos ht] at h'
      obtain ⟨s, h⟩ := h
      obtain ⟨s', h'⟩ := h'
      exact .inr (.inr ⟨s, s', h, h'⟩)
    · rename_i ht
      rw [if_neg ht] at h'
      obtain ⟨e, s, h, hp⟩ := h
      obtain ⟨e', s', h', hp'⟩ := h'
      exact .inr (.inl ⟨e, s, e', s', h, h', hp.trans hp'.symm⟩)
  | some rest =>
    simp only [Recognises] at h h'
    split at h
    · rename_i ht
      rw [if_pos ht] at h'
      obtain ⟨v, s, h⟩ := h
      obtain ⟨v', s', h'⟩ := h'
      exact .inl ⟨v, s, v', s', h, h'⟩
    · rename_i ht
      rw [if_neg ht] at h'
      obtain ⟨e, s, h, hp⟩ := h
      obtain ⟨e', s', h', hp'⟩ := h'
      refine .inr (.inl ⟨e, s, e', s', h, h', ?_⟩)
      have h1 : rest.length ≠ 0 := fun h0 => ht (List.length_eq_zero_iff.mp h0)
      have h2 := congrArg List.length hp
      have h3 := congrArg List.length hp'
      simp only [List.length_drop] at h2 h3
      omega

/-- C74 for the library: take a grammar of rule texts and the same with texts rewritten by the laws. Both are built, and
`ParseString` of the one and of the other, with whatever callbacks, agree about every text, if rules are nested no deeper than the
rule stack allows. -/
theorem C74_rewritten_parsers_agree (rx : Bytes → Option Regex) (tr0 : Trace) (htr0 : tr0.stack = false) (L L' : List GLine)
    (hg : GoodNames L) (hL : AllLines (TextOk rx L) L) (hu : AllLines Expr.Unlabelled L) (hL' : AllLines (TextOk rx L') L')
    (hu' : AllLines Expr.Unlabelled L') (h : RewritesLines L L') (name : String) :
    ∃ lines lines' m0, linesOf L = .ok lines ∧ linesOf L' = .ok lines' ∧ joesonMade = .ok m0 ∧ ∃ k0, ∀ k, k0 ≤ k →
      ∃ m m', grammarFromLines (compileRule rx m0.g tr0 k) name lines = .ok m ∧ grammarFromLines (compileRule rx m0.g tr0 k) name lines' = .ok m' ∧
        ∀ (V H : Type) (P P' : PureOps V), TotalCb P → TotalCb P' → ∀ tr : Trace, tr.stack = false → ∀ opts : List ParseOption,
          (∀ b, ParseOption.debug b ∈ opts → b = false) → ∀ (h : H) (text : Bytes) (d : Nat) (x : Option Bytes), d ≤ 1024 →
          Parses L d (.lines L) text x → ∃ k1, ∀ k', k1 ≤ k' →
            Recognises text x (parseString (P'.ops H) m'.g tr opts k' h text).1 ∧
            Alike (parseString (P.ops H) m.g tr opts k' h text).1 (parseString (P'.ops H) m'.g tr opts k' h text).1 := by
  obtain ⟨lines, m0, h1, h2, k1, h3⟩ := C51_rule_text_grammar_partial rx tr0 htr0 L hg hL name
  obtain ⟨lines', m0', h1', h2', k1', h3'⟩ := C51_rule_text_grammar_partial rx tr0 htr0 L' (goodNames_rewritten h hg) hL' name
  cases h2.symm.trans h2'
  refine ⟨lines, lines', m0, h1, h1', h2, max k1 k1', fun k hk => ?_⟩
  obtain ⟨m, hm, h4⟩ := h3 k (by omega)
  obtain ⟨m', hm', h4'⟩ := h3' k (by omega)
  refine ⟨m, m', hm, hm', ?_⟩
  intro V H P P' hP hP' tr htr opts ho hh text d x hd hp
  obtain ⟨k2, h5⟩ := h4 V H P hP tr htr opts ho hh text d x hp
  obtain ⟨k2', h5'⟩ := h4' V H P' hP' tr htr opts ho hh text d x ((C74_rewritten_grammar L L' hg h d text x).mp hp)
  refine ⟨max k2 k2', fun k' hk' => ?_⟩
  have r1 : Recognises text x (parseString (P.ops H) m.g tr opts k' hh text).1 := by
    rcases h5 k' (by omega) with h | h | h
    · exact h
    · omega
    · exact absurd hu h.1
  have r2 : Recognises text x (parseString (P'.ops H) m'.g tr opts k' hh text).1 := by
    rcases h5' k' (by omega) with h | h | h
    · exact h
    · omega
    · exact absurd hu' h.1
  exact ⟨r2, alike_of r1 r2⟩

namespace Sample

/-- `'a' S 'b' | 'a' S 'c' | 'd'` -/
def longLines : List GLine :=
  [.alt "S" none (.text (.choice [] (.cons [] none (.prim (litE "a")) (.cons [0x20] none (.prim (.ref (asc "S"))) (.one [0x20] none (.prim (litE "b"))))) [0x20]
    (.cons (.cons [0x20] none (.prim (litE "a")) (.cons [0x20] none (.prim (.ref (asc "S"))) (.one [0x20] none (.prim (litE "c"))))) [0x20]
      (.one (.one [0x20] none (.prim (litE "d"))))) [] []))]

/-- `'a' S ('b' | 'c') | 'd'` -/
def shortLines : List GLine :=
  [.alt "S" none (.text (.choice [] (.cons [] none (.prim (litE "a")) (.cons [0x20] none (.prim (.ref (asc "S"))) (.one [0x20] none (.prim (.group
    (.choice [] (.one [] none (.prim (litE "b"))) [0x20] (.one (.one [0x20] none (.prim (litE "c")))) [] [])))))) [0x20]
      (.one (.one [0x20] none (.prim (litE "d")))) [] []))]

end Sample

open Sample in
/-- The texts of the two. -/
example : linesOf longLines = .ok [.o "S" (.o "" (.s (asc "'a' S 'b' | 'a' S 'c' | 'd'")) {}) {}] ∧
    linesOf shortLines = .ok [.o "S" (.o "" (.s (asc "'a' S ('b' | 'c') | 'd'")) {}) {}] := ⟨rfl, rfl⟩

open Sample in
/-- The second is the first rewritten: the alternatives of the first are put in a group, what they begin with is taken out. -/
theorem longLines_rewritten : RewritesLines longLines shortLines := by
  refine .cons (.alt (.text ?_)) .nil
  let a : Pat := .lit [0x61]
  let b : Pat := .lit [0x62]
  let c : Pat := .lit [0x63]
  let d : Pat := .lit [0x64]
  let S : Pat := .name "S"
  show Rewrites (.alt [.seq [a, S, b], .seq [a, S, c], d]) (.alt [.seq [a, S, .alt [b, c]], d])
  -- `('a' S 'b' | 'a' S 'c') | 'd'`
  refine .trans (.symm (.law (.altFlat [] [.seq [a, S, b], .seq [a, S, c]] [d]))) ?_
  refine .alt [] [d] ?_
  -- `('a' S) 'b' | ('a' S) 'c'`
  refine .trans (.alt [] [.seq [a, S, c]] (.symm (.law (.seqFlat [] [a, S] [b])))) ?_
  refine .trans (.alt [.seq [.seq [a, S], b]] [] (.symm (.law (.seqFlat [] [a, S] [c])))) ?_
  -- `('a' S) ('b' | 'c')`
  refine .trans (.law (.factor (.seq [a, S]) [b] [[c]])) ?_
  refine .trans (.law (.seqFlat [] [a, S] [.alt [.seq [b], .seq [c]]])) ?_
  refine .seq [a, S] [] ?_
  exact .trans (.alt [] [.seq [c]] (.law (.seqOne b))) (.alt [b] [] (.law (.seqOne c)))

open Sample in
theorem longLines_names : GoodNames longLines := by
  refine ⟨?_, ?_, ?_⟩
  · simp [longLines, NamedLines, GLine.Named, Body.Named]
  · decide +kernel
  · decide +kernel

open Sample in
/-- It matches this, and so the other does. -/
example : Parses shortLines 20 (.lines shortLines) (asc "aadcb") (some []) :=
  (C74_rewritten_grammar longLines shortLines longLines_names longLines_rewritten 20 _ _).mp (run_sound 60 _ _ _ _ (by decide +kernel))

open Sample in
/-- The hypotheses of the theorem about the library hold for them. -/
example (rx : Bytes → Option Regex) : AllLines (TextOk rx longLines) longLines ∧ AllLines Expr.Unlabelled longLines ∧ AllLines (TextOk rx shortLines) shortLines ∧
    AllLines Expr.Unlabelled shortLines := by
  refine ⟨textsOk_of rx (by kernel_rfl), ?_, textsOk_of rx (by kernel_rfl), ?_⟩
  all_goals
    simp [longLines, shortLines, AllLines, GLine.All, Body.All, Expr.Unlabelled, Units.Unlabelled, Alts.Unlabelled, Deco.Unlabelled, Prim.Unlabelled, litE]

/-! ## What is not a law -/

/-- C74: `a* a` matches nothing, whatever `a` is: the repetition leaves no `a`. -/
theorem C74_star_then_same_never (L : List GLine) (hg : GoodNames L) (v : Pat) (d : Nat) (s : Bytes) (r : Option Bytes)
    (h : Parses L d (.pat (.seq [.rep v none 0 none, v])) s r) : r = none := by
  rw [pat_seq, seq_cons] at h
  rcases h with ⟨h, -⟩ | ⟨s', h, h'⟩
  · exact h
  · have hv := rep_leaves_none h
    rw [seq_cons] at h'
    rcases h' with ⟨h', -⟩ | ⟨s'', h', -⟩
    · exact h'
    · cases parses_unique hg.distinct hv h'

/-- Not even of these. -/
example : Parses [] 0 (.pat (.seq [.rep (.lit (asc "a")) none 0 none, .lit (asc "a")])) (asc "aaa") none := run_sound 60 _ _ _ _ (by decide +kernel)

/-- C74: choices do not commute (`'a' | 'ab'`), sequences do not distribute over a choice before them (`('a' | 'ab') 'c'` and
`'a' 'c' | 'ab' 'c'`), an optional part is not a repetition of at most one (`'a'?` and `'a'*{,1}`), and a lookahead is not what it
looks for. -/
theorem C74_not_laws :
    ¬ (∀ p q, Same [] (.alt [p, q]) (.alt [q, p])) ∧ ¬ (∀ p q r, Same [] (.seq [.alt [p, q], r]) (.alt [.seq [p, r], .seq [q, r]])) ∧
    ¬ (∀ p, Same [] (.opt p) (.rep p none 0 (some 1))) ∧ ¬ (∀ p, Same [] (.look p) p) := by
  have hu : ∀ {d j s r r'}, Parses [] d j s r → Parses [] d j s r' → r = r' := fun h h' => parses_unique (by simp [declsOf]) h h'
  refine ⟨fun h => ?_, fun h => ?_, fun h => ?_, fun h => ?_⟩
  · have h1 : Parses [] 0 (.pat (.alt [.lit (asc "a"), .lit (asc "ab")])) (asc "ab") (some (asc "b")) := run_sound 60 _ _ _ _ (by decide +kernel)
    have h2 : Parses [] 0 (.pat (.alt [.lit (asc "ab"), .lit (asc "a")])) (asc "ab") (some []) := run_sound 60 _ _ _ _ (by decide +kernel)
    exact absurd (hu ((h _ _ _ _ _).mp h1) h2) (by decide +kernel)
  · have h1 : Parses [] 0 (.pat (.seq [.alt [.lit (asc "a"), .lit (asc "ab")], .lit (asc "c")])) (asc "abc") none :=
      run_sound 60 _ _ _ _ (by decide +kernel)
    have h2 : Parses [] 0 (.pat (.alt [.seq [.lit (asc "a"), .lit (asc "c")], .seq [.lit (asc "ab"), .lit (asc "c")]])) (asc "abc") (some []) :=
      run_sound 60 _ _ _ _ (by decide +kernel)
    exact absurd (hu ((h _ _ _ _ _ _).mp h1) h2) (by decide +kernel)
  · have h1 : Parses [] 0 (.pat (.opt (.lit (asc "a")))) (asc "aa") (some (asc "a")) := run_sound 60 _ _ _ _ (by decide +kernel)
    have h2 : Parses [] 0 (.pat (.rep (.lit (asc "a")) none 0 (some 1))) (asc "aa") (some []) := run_sound 60 _ _ _ _ (by decide +kernel)
    exact absurd (hu ((h _ _ _ _).mp h1) h2) (by decide +kernel)
  · have h1 : Parses [] 0 (.pat (.look (.lit (asc "a")))) (asc "a") (some (asc "a")) := run_sound 60 _ _ _ _ (by decide +kernel)
    have h2 : Parses [] 0 (.pat (.lit (asc "a"))) (asc "a") (some []) := run_sound 60 _ _ _ _ (by decide +kernel)
    exact absurd (hu ((h _ _ _ _).mp h1) h2) (by decide +kernel)

end Joeson
