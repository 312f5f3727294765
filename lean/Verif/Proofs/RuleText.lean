import Verif.Proofs.JoesonG
import Verif.Spec.Means
import Verif.Spec.RuleText
import Verif.Proofs.Utf8b
/-!
# Deriving what the grammar of rule texts means: the calculus
-/

namespace Joeson.RuleText
open Joe

variable {rx : Bytes → Option Regex}

/-- The grammar of rule texts on a text. -/
def JE (rx : Bytes → Option Regex) (text : Bytes) : PegEnv JVal := ⟨joesonOps rx, Stream.ofText text, G⟩

/-- The task succeeds on `m` followed by `rest`, with the given value, nesting rules `D` deep. -/
def Hits (rx : Bytes → Option Regex) (D : Nat) (t : Task JVal) (m rest : Bytes) (v : JVal) : Prop :=
  ∀ pre q d, D ≤ d → Means (JE rx (pre ++ (m ++ rest))) d q t pre.length (.ok (some (v, pre.length + m.length)))

/-- The task fails on the text. -/
def Fails (rx : Bytes → Option Regex) (D : Nat) (t : Task JVal) (s : Bytes) : Prop :=
  ∀ pre q d, D ≤ d → Means (JE rx (pre ++ s)) d q t pre.length (.ok none)

theorem Hits.mono {D D' : Nat} {t : Task JVal} {m rest : Bytes} {v : JVal} (h : Hits rx D t m rest v) (hD : D ≤ D') :
    Hits rx D' t m rest v := fun pre q d hd => h pre q d (Nat.le_trans hD hd)

theorem Fails.mono {D D' : Nat} {t : Task JVal} {s : Bytes} (h : Fails rx D t s) (hD : D ≤ D') : Fails rx D' t s :=
  fun pre q d hd => h pre q d (Nat.le_trans hD hd)

/-! ## Terminals -/

theorem slice_append (pre s : Bytes) (n : Nat) (h : n ≤ s.length) :
    goSlice (pre ++ s) (pre.length : Int) ((pre.length + n : Nat) : Int) = .ok (s.take n) := by
  unfold goSlice
  rw [if_pos ⟨by omega, by omega, by rw [List.length_append]; omega⟩]
  rw [Int.toNat_natCast, List.drop_left]
  congr 2
  omega

theorem goMin_eq (a b : Nat) : goMin (a : Int) (b : Int) = ((min a b : Nat) : Int) := by
  unfold goMin
  split <;> omega

theorem matchString_hit (pre b rest : Bytes) :
    (Stream.ofText (pre ++ (b ++ rest))).matchString pre.length b = .ok (some b, pre.length + b.length) := by
  show (do let (r, c) ← (runeAt (pre ++ (b ++ rest)) pre.length).matchString b; return (r, c.pos)) = _
  unfold RuneStream.matchString
  have h1 : (runeAt (pre ++ (b ++ rest)) pre.length).text = pre ++ (b ++ rest) := rfl
  have h2 : (runeAt (pre ++ (b ++ rest)) pre.length).pos = pre.length := rfl
  rw [h1, h2]
  rw [show ((pre.length : Int) + (b.length : Int)) = ((pre.length + b.length : Nat) : Int) from rfl, goMin_eq,
    show min (pre.length + b.length) (pre ++ (b ++ rest)).length = pre.length + b.length by
      simp only [List.length_append]; omega, slice_append _ _ _ (by simp)]
  simp only [List.take_left']
  simp [Bind.bind, Except.bind, Pure.pure, Except.pure]

theorem matchString_miss (pre b s : Bytes) (h : ¬ b <+: s) :
    (Stream.ofText (pre ++ s)).matchString pre.length b = .ok (none, pre.length) := by
  show (do let (r, c) ← (runeAt (pre ++ s) pre.length).matchString b; return (r, c.pos)) = _
  unfold RuneStream.matchString
  have h1 : (runeAt (pre ++ s) pre.length).text = pre ++ s := rfl
  have h2 : (runeAt (pre ++ s) pre.length).pos = pre.length := rfl
  rw [h1, h2]
  rw [show ((pre.length : Int) + (b.length : Int)) = ((pre.length + b.length : Nat) : Int) from rfl, goMin_eq,
    show min (pre.length + b.length) (pre ++ s).length = pre.length + min b.length s.length by
      simp only [List.length_append]; omega, slice_append _ _ _ (by omega)]
  have hne : b ≠ s.take (min b.length s.length) := by
    intro hb
    apply h
    rw [hb]
    exact List.take_prefix _ _
  simp [Bind.bind, Except.bind, Pure.pure, Except.pure, h2, hne]

theorem matchRegexp_hit (pre s rest : Bytes) (re : Regex) (h : re.find (s ++ rest) = some (0, s.length)) :
    (Stream.ofText (pre ++ (s ++ rest))).matchRegexp pre.length re = .ok (some s, pre.length + s.length) := by
  show (do let (r, c) ← (runeAt (pre ++ (s ++ rest)) pre.length).matchRegexp re; return (r, c.pos)) = _
  unfold RuneStream.matchRegexp
  have h1 : (runeAt (pre ++ (s ++ rest)) pre.length).text = pre ++ (s ++ rest) := rfl
  have h2 : (runeAt (pre ++ (s ++ rest)) pre.length).pos = pre.length := rfl
  rw [h1, h2]
  have h3 := slice_append pre (s ++ rest) (s ++ rest).length (Nat.le_refl _)
  rw [show pre.length + (s ++ rest).length = (pre ++ (s ++ rest)).length by simp] at h3
  rw [h3, List.take_length]
  simp only [Bind.bind, Except.bind, h]
  have h4 := slice_append pre (s ++ rest) s.length (by simp)
  rw [List.take_left'] at h4
  rw [show ((pre.length : Int) + ((0 : Nat) : Int)) = (pre.length : Int) by simp,
    show ((pre.length : Int) + (s.length : Int)) = ((pre.length + s.length : Nat) : Int) from rfl, goMin_eq,
    show min (pre.length + s.length) (pre ++ (s ++ rest)).length = pre.length + s.length by
      simp only [List.length_append]; omega, h4]
  · simp [Pure.pure, Except.pure]
  · rfl

theorem matchRegexp_miss (pre s : Bytes) (re : Regex) (h : ∀ b, re.find s ≠ some (0, b)) :
    (Stream.ofText (pre ++ s)).matchRegexp pre.length re = .ok (none, pre.length) := by
  show (do let (r, c) ← (runeAt (pre ++ s) pre.length).matchRegexp re; return (r, c.pos)) = _
  unfold RuneStream.matchRegexp
  have h1 : (runeAt (pre ++ s) pre.length).text = pre ++ s := rfl
  have h2 : (runeAt (pre ++ s) pre.length).pos = pre.length := rfl
  rw [h1, h2]
  have h3 := slice_append pre s s.length (Nat.le_refl _)
  rw [show pre.length + s.length = (pre ++ s).length by simp] at h3
  rw [h3, List.take_length]
  simp only [Bind.bind, Except.bind]
  cases hf : re.find s with
  | none => simp [Pure.pure, Except.pure, h2]
  | some ab =>
    obtain ⟨a, b⟩ := ab
    have ha : a ≠ 0 := by
      rintro rfl
      exact h b hf
    simp [Pure.pure, Except.pure, h2, ha]

/-! ## Nodes -/

theorem Hits.plain {D : Nat} {n : Node} {m rest : Bytes} {v : JVal} (h : Hits rx D (.inner n) m rest v)
    (hn : n.isRule = false := by rfl) (hw : n.wraps = false := by rfl) : Hits rx D (.node n) m rest v :=
  fun pre q d hd => .plain hn hw (h pre q d hd)

theorem Fails.plain {D : Nat} {n : Node} {s : Bytes} (h : Fails rx D (.inner n) s)
    (hn : n.isRule = false := by rfl) (hw : n.wraps = false := by rfl) : Fails rx D (.node n) s :=
  fun pre q d hd => .plain hn hw (h pre q d hd)

theorem finish_ok {E : PegEnv JVal} (hE : E.P = joesonOps rx) {i : Info} (hl : i.ownLabel = false) {q p : Nat} {v v' : JVal}
    (hcb : (joesonOps rx).run i.cb v p = .ok (some v')) :
    Res.finish E i q (.ok (some (v, p))) = .ok (some (v', p)) := by
  unfold Res.finish
  simp only [hl, Bool.false_eq_true, if_false, hE, hcb]
  rfl

theorem Hits.wrapped {D : Nat} {n : Node} {m rest : Bytes} {v v' : JVal} (h : Hits rx D (.inner n) m rest v)
    (hcb : ∀ p, (joesonOps rx).run n.info.cb v p = .ok (some v'))
    (hn : n.isRule = false := by rfl) (hw : n.wraps = true := by rfl) (hl : n.info.ownLabel = false := by rfl) :
    Hits rx D (.node n) m rest v' := fun pre q d hd => by
  have := Means.wrapped hn hw (h pre q d hd)
  rwa [finish_ok rfl hl (hcb _)] at this

theorem Fails.wrapped {D : Nat} {n : Node} {s : Bytes} (h : Fails rx D (.inner n) s)
    (hn : n.isRule = false := by rfl) (hw : n.wraps = true := by rfl) : Fails rx D (.node n) s :=
  fun pre q d hd => Means.wrapped (r := .ok none) hn hw (h pre q d hd)

theorem Hits.rule {D id : Nat} {body : Node} {m rest : Bytes} {v v' : JVal} (hr : G.rules[id]? = some body)
    (h : Hits rx D (.inner body) m rest v) (hcb : ∀ p, (joesonOps rx).run body.info.cb v p = .ok (some v'))
    (hl : body.info.ownLabel = false := by rfl) :
    Hits rx (D + 1) (.node (.rule id)) m rest v' := fun pre q d hd => by
  obtain ⟨d, rfl⟩ : ∃ d', d = d' + 1 := ⟨d - 1, by omega⟩
  have := Means.rule (E := JE rx (pre ++ (m ++ rest))) (q := q) hr (h pre pre.length d (by omega))
  rwa [finish_ok rfl hl (hcb _)] at this

theorem Fails.rule {D id : Nat} {body : Node} {s : Bytes} (hr : G.rules[id]? = some body)
    (h : Fails rx D (.inner body) s) : Fails rx (D + 1) (.node (.rule id)) s := fun pre q d hd => by
  obtain ⟨d, rfl⟩ : ∃ d', d = d' + 1 := ⟨d - 1, by omega⟩
  exact Means.rule (E := JE rx (pre ++ s)) (q := q) (r := .ok none) hr (h pre pre.length d (by omega))

theorem Hits.ref {D : Nat} {i : Info} {nm : String} {id : Nat} {m rest : Bytes} {v : JVal}
    (h : Hits rx D (.node (.rule id)) m rest v) (hl : G.lookup nm = some id := by rfl)
    (hw : (Node.ref i nm).wraps = false := by rfl) : Hits rx D (.node (.ref i nm)) m rest v :=
  fun pre q d hd => .plain rfl hw (.ref (E := JE rx _) hl (h pre q d hd))

theorem Fails.ref {D : Nat} {i : Info} {nm : String} {id : Nat} {s : Bytes}
    (h : Fails rx D (.node (.rule id)) s) (hl : G.lookup nm = some id := by rfl)
    (hw : (Node.ref i nm).wraps = false := by rfl) : Fails rx D (.node (.ref i nm)) s :=
  fun pre q d hd => .plain rfl hw (.ref (E := JE rx _) hl (h pre q d hd))

theorem hits_str {D : Nat} (i : Info) (b rest : Bytes) : Hits rx D (.inner (.str i b)) b rest (.str b) :=
  fun pre _ _ _ => .str (E := JE rx _) (m := some b) (matchString_hit pre b rest)

theorem fails_str {D : Nat} (i : Info) {b s : Bytes} (h : ¬ b <+: s) : Fails rx D (.inner (.str i b)) s :=
  fun pre _ _ _ => .str (E := JE rx _) (m := none) (matchString_miss pre b s h)

theorem hits_regex {D : Nat} (i : Info) {re : Regex} {s rest : Bytes} (h : re.find (s ++ rest) = some (0, s.length)) :
    Hits rx D (.inner (.regex i re)) s rest (.str s) :=
  fun pre _ _ _ => .regex (E := JE rx _) (m := some s) (matchRegexp_hit pre s rest re h)

theorem fails_regex {D : Nat} (i : Info) {re : Regex} {s : Bytes} (h : ∀ b, re.find s ≠ some (0, b)) :
    Fails rx D (.inner (.regex i re)) s :=
  fun pre _ _ _ => .regex (E := JE rx _) (m := none) (matchRegexp_miss pre s re h)

/-! ## Choice -/

theorem Hits.choice {D : Nat} {i : Info} {l : List Node} {m rest : Bytes} {v : JVal} (h : Hits rx D (.alts l) m rest v) :
    Hits rx D (.inner (.choice i l)) m rest v := fun pre q d hd => .choice (h pre q d hd)

theorem Fails.choice {D : Nat} {i : Info} {l : List Node} {s : Bytes} (h : Fails rx D (.alts l) s) :
    Fails rx D (.inner (.choice i l)) s := fun pre q d hd => .choice (h pre q d hd)

theorem fails_alts_nil {D : Nat} {s : Bytes} : Fails rx D (.alts []) s := fun _ _ _ _ => .altsEnd

theorem Hits.here {D : Nat} {c : Node} {cs : List Node} {m rest : Bytes} {v : JVal} (h : Hits rx D (.node c) m rest v) :
    Hits rx D (.alts (c :: cs)) m rest v := fun pre q d hd => .altsHit (h pre q d hd)

theorem Fails.next {D : Nat} {c : Node} {cs : List Node} {m rest : Bytes} {v : JVal} (h : Fails rx D (.node c) (m ++ rest))
    (h' : Hits rx D (.alts cs) m rest v) : Hits rx D (.alts (c :: cs)) m rest v :=
  fun pre q d hd => .altsMiss (h pre q d hd) (h' pre q d hd)

theorem Fails.both {D : Nat} {c : Node} {cs : List Node} {s : Bytes} (h : Fails rx D (.node c) s)
    (h' : Fails rx D (.alts cs) s) : Fails rx D (.alts (c :: cs)) s :=
  fun pre q d hd => .altsMiss (h pre q d hd) (h' pre q d hd)

/-- A choice with one alternative. -/
theorem Hits.mono1 {D : Nat} {i : Info} {n : Node} {m rest : Bytes} {v : JVal} (h : Hits rx D (.node n) m rest v)
    (hw : (Node.choice i [n]).wraps = false := by rfl) : Hits rx D (.node (.choice i [n])) m rest v :=
  h.here.choice.plain rfl hw

theorem Fails.mono1 {D : Nat} {i : Info} {n : Node} {s : Bytes} (h : Fails rx D (.node n) s)
    (hw : (Node.choice i [n]).wraps = false := by rfl) : Fails rx D (.node (.choice i [n])) s :=
  (h.both (fails_alts_nil)).choice.plain rfl hw

/-! ## Sequence -/

theorem Hits.seq {D : Nat} {i : Info} {r : SeqRepr} {l : List Node} {m rest : Bytes} {v : JVal}
    (h : Hits rx D (.items r l .nothing) m rest v) : Hits rx D (.inner (.seq i r l)) m rest v :=
  fun pre q d hd => .seq (h pre q d hd)

theorem Fails.seq {D : Nat} {i : Info} {r : SeqRepr} {l : List Node} {s : Bytes}
    (h : Fails rx D (.items r l .nothing) s) : Fails rx D (.inner (.seq i r l)) s :=
  fun pre q d hd => .seq (h pre q d hd)

theorem hits_items_nil {D : Nat} {r : SeqRepr} {acc : SeqVal JVal} {rest : Bytes} {v : JVal}
    (hv : seqValue (joesonOps rx) r acc = v := by rfl) : Hits rx D (.items r [] acc) [] rest v :=
  fun pre q d _ => by
    rw [← hv]
    exact .itemsEnd (E := JE rx _)

theorem Hits.put {D : Nat} {r : SeqRepr} {c : Node} {cs : List Node} {acc acc' : SeqVal JVal} {m m1 m2 rest : Bytes}
    {v w : JVal} (h : Hits rx D (.node c) m1 (m2 ++ rest) v)
    (hp : seqPut (joesonOps rx) r (G.info c) acc v = .ok acc')
    (h' : Hits rx D (.items r cs acc') m2 rest w) (hm : m = m1 ++ m2) : Hits rx D (.items r (c :: cs) acc) m rest w :=
  fun pre q d hd => by
    subst hm
    have h1 := h pre q d hd
    have h2 := h' (pre ++ m1) q d hd
    rw [List.append_assoc] at h2 ⊢
    refine .itemsPut h1 hp ?_
    simpa only [List.length_append, Nat.add_assoc] using h2

theorem Fails.first {D : Nat} {r : SeqRepr} {c : Node} {cs : List Node} {acc : SeqVal JVal} {s : Bytes}
    (h : Fails rx D (.node c) s) : Fails rx D (.items r (c :: cs) acc) s :=
  fun pre q d hd => .itemsMiss (h pre q d hd)

theorem Hits.putFail {D : Nat} {r : SeqRepr} {c : Node} {cs : List Node} {acc acc' : SeqVal JVal} {s m1 s2 : Bytes}
    {v : JVal} (h : Hits rx D (.node c) m1 s2 v)
    (hp : seqPut (joesonOps rx) r (G.info c) acc v = .ok acc')
    (h' : Fails rx D (.items r cs acc') s2) (hs : s = m1 ++ s2) : Fails rx D (.items r (c :: cs) acc) s :=
  fun pre q d hd => by
    subst hs
    have h1 := h pre q d hd
    have h2 := h' (pre ++ m1) q d hd
    rw [List.append_assoc] at h2
    refine .itemsPut h1 hp ?_
    simpa only [List.length_append, Nat.add_assoc] using h2

/-! ## Optionals and negation -/

theorem Hits.exist {D : Nat} {i : Info} {n : Node} {m rest : Bytes} {v : JVal} (h : Hits rx D (.node n) m rest v) :
    Hits rx D (.inner (.exist i n)) m rest v := fun pre q d hd => .existHit (h pre q d hd)

theorem Fails.exist {D : Nat} {i : Info} {n : Node} {s : Bytes} (h : Fails rx D (.node n) s) :
    Hits rx D (.inner (.exist i n)) [] s .undef := fun pre q d hd => .existMiss (E := JE rx _) (h pre q d hd)

theorem Fails.not {D : Nat} {i : Info} {n : Node} {s : Bytes} (h : Fails rx D (.node n) s) :
    Hits rx D (.inner (.not i n)) [] s .undef := fun pre q d hd => .notMiss (E := JE rx _) (h pre q d hd)

theorem Hits.not {D : Nat} {i : Info} {n : Node} {m rest : Bytes} {v : JVal} (h : Hits rx D (.node n) m rest v) :
    Fails rx D (.inner (.not i n)) (m ++ rest) := fun pre q d hd => .notHit (h pre q d hd)

/-! ## Repetition -/

/-- Enough matches. -/
theorem stop_ok {E : PegEnv JVal} (hE : E.P = joesonOps rx) {mn : Int} {vs : List JVal} {p : Nat} (h : mn ≤ vs.length) :
    Res.stop E mn vs p = .ok (some (.arr vs, p)) := by
  unfold Res.stop
  rw [if_neg (by omega), hE]
  rfl

/-- Too few. -/
theorem stop_none {E : PegEnv JVal} {mn : Int} {vs : List JVal} {p : Nat} (h : mn > vs.length) :
    Res.stop E mn vs p = .ok none := by
  unfold Res.stop
  rw [if_pos h]

/-- No match at all. -/
theorem Fails.pattern {D : Nat} {i : Info} {n : Node} {j : Option Node} {mn mx : Int} {s : Bytes}
    (h : Fails rx D (.node n) s) (hmn : mn ≤ 0) : Hits rx D (.inner (.pattern i n j mn mx)) [] s (.arr []) :=
  fun pre q d hd => by
    have := Means.patMiss (i := i) (join := j) (mn := mn) (mx := mx) (h pre q d hd)
    rwa [stop_ok rfl (by simpa using hmn)] at this

/-- No match at all. -/
theorem Fails.patternFail {D : Nat} {i : Info} {n : Node} {j : Option Node} {mn mx : Int} {s : Bytes}
    (h : Fails rx D (.node n) s) (hmn : 0 < mn) : Fails rx D (.inner (.pattern i n j mn mx)) s :=
  fun pre q d hd => by
    have := Means.patMiss (i := i) (join := j) (mn := mn) (mx := mx) (h pre q d hd)
    rwa [stop_none (by simpa using hmn)] at this

theorem Hits.pattern {D : Nat} {i : Info} {n : Node} {j : Option Node} {mn mx : Int} {m m1 m2 rest : Bytes} {v w : JVal}
    (h : Hits rx D (.node n) m1 (m2 ++ rest) v) (h' : Hits rx D (.more n j mn mx [v]) m2 rest w) (hm : m = m1 ++ m2) :
    Hits rx D (.inner (.pattern i n j mn mx)) m rest w := fun pre q d hd => by
  subst hm
  have h1 := h pre q d hd
  have h2 := h' (pre ++ m1) q d hd
  rw [List.append_assoc] at h2 ⊢
  refine .patMore h1 ?_
  simpa only [List.length_append, Nat.add_assoc] using h2

theorem Hits.patternFail {D : Nat} {i : Info} {n : Node} {j : Option Node} {mn mx : Int} {s m1 s2 : Bytes} {v : JVal}
    (h : Hits rx D (.node n) m1 s2 v) (h' : Fails rx D (.more n j mn mx [v]) s2) (hs : s = m1 ++ s2) :
    Fails rx D (.inner (.pattern i n j mn mx)) s := fun pre q d hd => by
  subst hs
  have h1 := h pre q d hd
  have h2 := h' (pre ++ m1) q d hd
  rw [List.append_assoc] at h2
  refine .patMore h1 ?_
  simpa only [List.length_append, Nat.add_assoc] using h2

theorem Fails.stop {D : Nat} {n : Node} {mn mx : Int} {vs : List JVal} {s : Bytes}
    (h : Fails rx D (.node n) s) (hmn : mn ≤ vs.length) : Hits rx D (.more n none mn mx vs) [] s (.arr vs) :=
  fun pre q d hd => by
    have := Means.moreMiss (mn := mn) (mx := mx) (vs := vs) .sepNone (h pre q d hd)
    rwa [stop_ok rfl hmn] at this

theorem Fails.stopFail {D : Nat} {n : Node} {mn mx : Int} {vs : List JVal} {s : Bytes}
    (h : Fails rx D (.node n) s) (hmn : mn > vs.length) : Fails rx D (.more n none mn mx vs) s :=
  fun pre q d hd => by
    have := Means.moreMiss (mn := mn) (mx := mx) (vs := vs) .sepNone (h pre q d hd)
    rwa [stop_none hmn] at this

theorem Hits.next {D : Nat} {n : Node} {mn mx : Int} {vs : List JVal} {m m1 m2 rest : Bytes} {v w : JVal}
    (h : Hits rx D (.node n) m1 (m2 ++ rest) v) (hmx : mx < 0) (h' : Hits rx D (.more n none mn mx (vs ++ [v])) m2 rest w)
    (hm : m = m1 ++ m2) : Hits rx D (.more n none mn mx vs) m rest w := fun pre q d hd => by
  subst hm
  have h1 := h pre q d hd
  have h2 := h' (pre ++ m1) q d hd
  rw [List.append_assoc] at h2 ⊢
  refine .moreNext .sepNone h1 (by omega) ?_
  simpa only [List.length_append, Nat.add_assoc] using h2

theorem Fails.sepStop {D : Nat} {n j : Node} {mn mx : Int} {vs : List JVal} {s : Bytes}
    (h : Fails rx D (.node j) s) (hmn : mn ≤ vs.length) : Hits rx D (.more n (some j) mn mx vs) [] s (.arr vs) :=
  fun pre q d hd => by
    have := Means.sepMiss (value := n) (mn := mn) (mx := mx) (vs := vs) (.sepSome (h pre q d hd))
    rwa [stop_ok rfl hmn] at this

theorem Fails.sepStopFail {D : Nat} {n j : Node} {mn mx : Int} {vs : List JVal} {s : Bytes}
    (h : Fails rx D (.node j) s) (hmn : mn > vs.length) : Fails rx D (.more n (some j) mn mx vs) s :=
  fun pre q d hd => by
    have := Means.sepMiss (value := n) (mn := mn) (mx := mx) (vs := vs) (.sepSome (h pre q d hd))
    rwa [stop_none hmn] at this

theorem Hits.moreStop {D : Nat} {n j : Node} {mn mx : Int} {vs : List JVal} {s m1 s2 : Bytes} {w : JVal}
    (hj : Hits rx D (.node j) m1 s2 w) (h : Fails rx D (.node n) s2) (hmn : mn ≤ vs.length) (hs : s = m1 ++ s2) :
    Hits rx D (.more n (some j) mn mx vs) [] s (.arr vs) :=
  fun pre q d hd => by
    subst hs
    have h1 := hj pre q d hd
    have h2 := h (pre ++ m1) q d hd
    rw [List.append_assoc, List.length_append] at h2
    have := Means.moreMiss (mn := mn) (mx := mx) (vs := vs) (.sepSome h1) h2
    rwa [stop_ok rfl hmn] at this

theorem Hits.sepNext {D : Nat} {n j : Node} {mn mx : Int} {vs : List JVal} {m m0 m1 m2 rest : Bytes} {u v w : JVal}
    (hj : Hits rx D (.node j) m0 (m1 ++ m2 ++ rest) u) (h : Hits rx D (.node n) m1 (m2 ++ rest) v) (hmx : mx < 0)
    (h' : Hits rx D (.more n (some j) mn mx (vs ++ [v])) m2 rest w) (hm : m = m0 ++ m1 ++ m2) :
    Hits rx D (.more n (some j) mn mx vs) m rest w := fun pre q d hd => by
  subst hm
  have h0 := hj pre q d hd
  have h1 := h (pre ++ m0) q d hd
  have h2 := h' (pre ++ m0 ++ m1) q d hd
  simp only [List.append_assoc, List.length_append, Nat.add_assoc] at h0 h1 h2 ⊢
  exact .moreNext (.sepSome h0) h1 (by omega) h2

end Joeson.RuleText
