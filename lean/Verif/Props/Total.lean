import Verif.Proofs.Total
import Verif.Props.Peg
import Verif.Props.LeftRec2
/-!
# C22 for every text, C40: how deep the input may nest
-/

namespace Joeson
open Spec
variable {V H : Type}

/-- Every text has a meaning, nesting rules at most (length + 1) times the number of rules. -/
theorem textMeans_total (P : PureOps V) (g : Grammar) (hg : g.Built) (hlr : g.NoLeftRec) (text : Bytes) :
    ∃ r, TextMeans P g text ((text.length + 1) * g.numRules) r := by
  obtain ⟨nn, rk, hr⟩ := ranked_of_noLeftRec hg hlr
  obtain ⟨i, l, hroot, -, -, hl⟩ := hg.root
  have hbel : g.root.Below g.numRules := by
    rw [hroot]
    refine .choice fun c hc => ?_
    obtain ⟨id, rfl, hid⟩ := hl c hc
    exact .rule hid
  have hgd : g.root.Guarded g nn := by
    rw [hroot]
    refine .choice fun c hc => ?_
    obtain ⟨id, rfl, -⟩ := hl c hc
    exact .rule
  obtain ⟨r, hm, -⟩ := total (E := ⟨P, Stream.ofText text, g⟩) (Stream.ofText_valid text) hg hr text.length 0
    (Nat.le_refl _) (Nat.zero_le _) g.root hbel hgd 0
  refine ⟨r, ?_⟩
  have he : (text.length + 1) * g.numRules = (text.length - 0) * g.numRules + g.numRules := by
    rw [Nat.add_mul, Nat.one_mul, Nat.sub_zero]
  unfold TextMeans
  rw [he]
  exact hm

/-- C22 in full for grammars without left recursion and without repetitions of something empty: on every text the
grammar means exactly one thing, and `ParseString` answers it, or the rule stack is exhausted. -/
theorem C22_every_text (P : PureOps V) (g : Grammar) (hg : g.Built) (hlr : g.NoLeftRec) (tr : Trace)
    (opts : List ParseOption) (hn : NoTrace g tr opts) (h : H) (text : Bytes) :
    ∃ r, (∀ d r', TextMeans P g text d r' → r' = r) ∧ (∃ d, TextMeans P g text d r) ∧
      ∃ k, ∀ k', k ≤ k' → Answers text r (parseString (P.ops H) g tr opts k' h text).1 ∨
        (parseString (P.ops H) g tr opts k' h text).1 = .panic .stackOverflow := by
  obtain ⟨r, hm⟩ := textMeans_total P g hg hlr text
  exact ⟨r, fun d r' h' => Means.unique h' hm, ⟨_, hm⟩, C22_peg_or_stack_overflow P g hg tr opts hn h text _ r hm⟩

/-- C40 for short texts: without left recursion, if (length + 1) times the number of rules is at most 1024 then
the stack is never exhausted: `ParseString` answers the meaning of the text, whatever its nesting.

What is missing: longer texts, for which `C40_deep_nesting_panics` shows that the claim is false. -/
theorem C40_short_text_partial (P : PureOps V) (g : Grammar) (hg : g.Built) (hlr : g.NoLeftRec) (tr : Trace)
    (opts : List ParseOption) (hn : NoTrace g tr opts) (h : H) (text : Bytes)
    (hs : (text.length + 1) * g.numRules ≤ 1024) :
    ∃ r, (∃ d, TextMeans P g text d r) ∧
      ∃ k, ∀ k', k ≤ k' → Answers text r (parseString (P.ops H) g tr opts k' h text).1 := by
  obtain ⟨r, hm⟩ := textMeans_total P g hg hlr text
  exact ⟨r, ⟨_, hm⟩, C22_engine_computes_peg P g hg tr opts hn h text _ hs r hm⟩

namespace Sample

/-- `X: '(' X ')' | 'a'`. -/
def parens : Grammar where
  rules := [.choice (ri "X") [.seq { parent := some false } .array [lit "(", ref "X", lit ")"], .str {} (asc "a")]]
  lookup := lookupIn [("X", 0)]
  root := .choice {} [.rule 0]

theorem parens_built : parens.Built where
  rules := by
    intro n hn
    rw [List.mem_singleton.mp hn]
    refine .choice fun c hc => ?_
    simp only [List.mem_cons, List.not_mem_nil, or_false] at hc
    rcases hc with rfl | rfl
    · refine .seq fun c hc => ?_
      simp only [List.mem_cons, List.not_mem_nil, or_false] at hc
      rcases hc with rfl | rfl | rfl <;> constructor
    · exact .str
  noAlias := by
    intro n hn id h
    rw [List.mem_singleton.mp hn] at h
    cases h
  lookup := by
    intro nm id h
    simp only [parens, lookupIn, List.find?, Option.map_eq_some_iff] at h
    obtain ⟨a, h1, h2⟩ := h
    split at h1
    · cases h1; exact h2 ▸ Nat.zero_lt_one
    · cases h1
  root := ⟨_, _, rfl, rfl, rfl, fun c hc => ⟨0, List.mem_singleton.mp hc, Nat.zero_lt_one⟩⟩

theorem parens_first {id : Nat} : ¬ First parens (fun _ => True) (parens.rules.head (by simp [parens])) id := by
  intro h
  cases h with
  | choice hc hf =>
    simp only [List.mem_cons, List.not_mem_nil, or_false] at hc
    rcases hc with rfl | rfl
    · have hne : asc "(" ≠ [] := by decide
      generalize hl : [lit "(", ref "X", lit ")"] = l at hf
      cases hf with
      | seq hpre hf =>
        rename_i pre c post
        rcases pre with _ | ⟨x, pre⟩
        · obtain ⟨rfl, -⟩ := List.cons.inj hl
          cases hf
        · obtain ⟨rfl, -⟩ := List.cons.inj hl
          exact hpre (lit "(") (by simp) (.str hne)
    · cases hf

theorem parens_noLeftRec : parens.NoLeftRec := by
  refine ⟨fun _ => True, ?_, ?_, ?_⟩
  · intro id n _ hn
    rcases id with _ | id
    · cases hn
      refine .choice fun c hc => ?_
      simp only [List.mem_cons, List.not_mem_nil, or_false] at hc
      rcases hc with rfl | rfl
      · exact .seq (c := lit "(") (by simp) (.str (by decide))
      · exact .str (by decide)
    · cases hn
  · intro n hn
    rw [List.mem_singleton.mp hn]
    refine .choice fun c hc => ?_
    simp only [List.mem_cons, List.not_mem_nil, or_false] at hc
    rcases hc with rfl | rfl
    · refine .seq fun c hc => ?_
      simp only [List.mem_cons, List.not_mem_nil, or_false] at hc
      rcases hc with rfl | rfl | rfl <;> constructor
    · exact .str
  · have : ∀ a b, ¬ Reaches parens (fun _ => True) a b := by
      intro a b h
      induction h with
      | one hb hf =>
        rename_i id body id'
        rcases id with _ | id
        · cases hb; exact parens_first hf
        · cases hb
      | trans _ _ ih _ => exact ih
    exact fun id => this id id

example : ∃ r, (∃ d, TextMeans Sample.pure parens (asc "((((a))))") d r) ∧
    ∃ k, ∀ k', k ≤ k' → Answers (asc "((((a))))") r
      (parseString (Sample.pure.ops Unit) parens {} [] k' () (asc "((((a))))")).1 :=
  C40_short_text_partial _ _ parens_built parens_noLeftRec {} []
    ⟨rfl, by simp, by intro n hn; rw [List.mem_singleton.mp hn]; rfl⟩ () _ (by decide)

/-- Parsing `X` at depth `j`, below which there are `j` rules on the stack and nothing cached further on. -/
theorem parens_overflow (ops : Ops V H) (rest : Bytes) : ∀ (m j f : Nat) (s : St V H), j + m = 1024 → 3 * m + 1 ≤ f →
    s.pos = j → s.stack.length = j → (∀ p, j ≤ p → s.table p 0 = none) →
    parse (callEnv ops parens {} [] (List.replicate 1024 0x28 ++ rest)) f (.rule 0) s = .panic .stackOverflow := by
  intro m
  induction m with
  | zero =>
    intro j f s hj hf hp hs ht
    obtain ⟨f, rfl⟩ : ∃ f', f = f' + 1 := ⟨f - 1, by omega⟩
    have hlen : s.pos ≤ (callEnv ops parens {} [] (List.replicate 1024 0x28 ++ rest)).st.len := by
      show s.pos ≤ (List.replicate 1024 0x28 ++ rest).length
      rw [List.length_append, List.length_replicate]; omega
    have hget : ∃ a s', getFrame (callEnv ops parens {} [] (List.replicate 1024 0x28 ++ rest)) 0 s = .ok (a, s') ∧
        s'.stack = s.stack := by
      unfold getFrame
      rw [if_pos ⟨hlen, Nat.zero_lt_one⟩, ht s.pos (by omega)]
      exact ⟨_, _, rfl, rfl⟩
    obtain ⟨a, s', h1, h2⟩ := hget
    have hpush : stackPush (callEnv ops parens {} [] (List.replicate 1024 0x28 ++ rest)) 0 s = .panic .stackOverflow := by
      unfold stackPush
      rw [h1]
      show (if s'.stack.length < stackCap then _ else _) = _
      rw [if_neg (by rw [h2, hs]; show ¬ j < 1024; omega)]
    rw [parse]
    unfold wrap
    show ((stackPush (callEnv ops parens {} [] (List.replicate 1024 0x28 ++ rest)) 0 s).bind _) = _
    rw [hpush]; rfl
  | succ m ih =>
    intro j f s hj hf hp hs ht
    obtain ⟨f, rfl⟩ : ∃ f', f = f' + 3 := ⟨f - 3, by omega⟩
    generalize henv : callEnv ops parens {} [] (List.replicate 1024 0x28 ++ rest) = env at ih ⊢
    have hst : env.st = Stream.ofText (List.replicate 1024 0x28 ++ rest) := by rw [← henv]; rfl
    have hg : env.g = parens := by rw [← henv]; rfl
    have htr : env.trace = {} := by rw [← henv]; rfl
    have hlen : s.pos ≤ env.st.len := by
      rw [hst]
      show s.pos ≤ (List.replicate 1024 0x28 ++ rest).length
      rw [List.length_append, List.length_replicate]; omega
    have hget : getFrame env 0 s = .ok (s.next, { s with
        heap := setHeap s.heap s.next (newFrame V s.pos 0), next := s.next + 1,
        table := setTable s.table s.pos 0 (some s.next) }) := by
      unfold getFrame
      rw [if_pos ⟨hlen, by rw [hg]; exact Nat.zero_lt_one⟩, ht s.pos (by omega)]
    generalize hs1 : ({ s with
        heap := setHeap s.heap s.next (newFrame V s.pos 0), next := s.next + 1,
        table := setTable s.table s.pos 0 (some s.next) } : St V H) = s1 at hget
    have hpush : stackPush env 0 s = .ok { s1 with stack := s.next :: s1.stack } := by
      unfold stackPush
      rw [hget]
      show (if s1.stack.length < stackCap then _ else _) = _
      rw [if_pos (by rw [← hs1]; show s.stack.length < 1024; omega)]
    generalize hs2 : ({ s1 with stack := s.next :: s1.stack } : St V H) = s2 at hpush
    have hget2 : getFrame env 0 s2 = .ok (s.next, s2) := by
      unfold getFrame
      have h1 : s2.pos = s.pos := by rw [← hs2, ← hs1]
      have h2 : s2.table s2.pos 0 = some s.next := by rw [h1, ← hs2, ← hs1]; simp [setTable]
      rw [if_pos ⟨by rw [h1]; exact hlen, by rw [hg]; exact Nat.zero_lt_one⟩, h2]
    have hfr : s2.heap s.next = newFrame V s.pos 0 := by rw [← hs2, ← hs1]; simp [setHeap]
    have hob : ∀ {α β : Type} (x : α) (f : α → Out β), (Out.ok x >>= f) = f x := fun _ _ => rfl
    -- inside the rule
    have hbody : ∀ s3 : St V H, s3.pos = j → s3.stack.length = j + 1 → (∀ p, j + 1 ≤ p → s3.table p 0 = none) →
        parseAlts env (parse env (f + 2)) [.seq { parent := some false } .array [lit "(", ref "X", lit ")"], .str {} (asc "a")] s3 =
          .panic .stackOverflow := by
      intro s3 h1 h2 h3
      have hlit : parse env (f + 1) (lit "(") s3 = .ok (some (env.ops.str (asc "(")), { s3 with pos := j + 1 }) := by
        have hm : env.st.matchString s3.pos (asc "(") = .ok (some (asc "("), j + 1) := by
          have hd : (List.replicate 1024 0x28 ++ rest).drop j = asc "(" ++ (List.replicate (1024 - (j + 1)) 0x28 ++ rest) := by
            rw [List.drop_append_of_le_length (by rw [List.length_replicate]; omega), List.drop_replicate]
            have : 1024 - j = (1024 - (j + 1)) + 1 := by omega
            rw [this, List.replicate_succ]; rfl
          have := (C03_matchString (runeAt (List.replicate 1024 0x28 ++ rest) j)
            (runeAt_valid _ (by rw [List.length_append, List.length_replicate]; omega)) (asc "(")).1 _ hd
          rw [hst, h1]
          show (do let (r, c) ← (runeAt (List.replicate 1024 0x28 ++ rest) j).matchString (asc "("); return (r, c.pos)) = _
          rw [this]; rfl
        rw [parse]
        unfold wrap
        show parseKind env (parse env f) f (lit "(") s3 = _
        unfold lit
        rw [parseKind, hm]; rfl
      have hrec : parse env (f + 1) (ref "X") { s3 with pos := j + 1 } = .panic .stackOverflow := by
        rw [parse]
        unfold wrap
        show parseKind env (parse env f) f (ref "X") _ = _
        unfold ref
        rw [parseKind, hg]
        show ((stackPeek { s3 with pos := j + 1 }).bind fun _ => parse env f (.rule 0) { s3 with pos := j + 1 }) = _
        rw [ih (j + 1) f { s3 with pos := j + 1 } (by omega) (by omega) rfl h2 h3]
        unfold stackPeek
        show (match s3.stack with | a :: _ => Out.ok a | [] => _).bind _ = _
        rcases hst' : s3.stack with _ | ⟨a, l⟩
        · rw [hst'] at h2; simp at h2
        · rfl
      have hseq : parse env (f + 2) (.seq { parent := some false } .array [lit "(", ref "X", lit ")"]) s3 = .panic .stackOverflow := by
        rw [parse]
        unfold wrap
        show parseKind env (parse env (f + 1)) (f + 1) (.seq { parent := some false } .array [lit "(", ref "X", lit ")"]) s3 = _
        rw [parseKind, parseItems, hlit]
        rw [hob]
        dsimp only
        rw [show env.g.info (lit "(") = (lit "(").info from by rw [hg]; rfl]
        show parseItems env (parse env (f + 1)) .array [ref "X", lit ")"] {} { s3 with pos := j + 1 } = _
        rw [parseItems, hrec]; rfl
      rw [parseAlts, hseq]; rfl
    rw [parse]
    unfold wrap
    have hr0 : env.g.rules[0]? = some (.choice (ri "X")
        [.seq { parent := some false } .array [lit "(", ref "X", lit ")"], .str {} (asc "a")]) := by rw [hg]; rfl
    simp only [hr0]
    rw [hpush]
    show (loopify env (f + 2) 0 (ri "X") _ s2).bind _ = _
    have hloop : loopify env (f + 2) 0 (ri "X") (prepareResult env true (ri "X") (parseKind env (parse env (f + 2)) (f + 2)
        (.choice (ri "X") [.seq { parent := some false } .array [lit "(", ref "X", lit ")"], .str {} (asc "a")]))) s2 =
        .panic .stackOverflow := by
      unfold loopify
      rw [htr]
      show (getFrame env 0 s2 >>= _) = _
      rw [hget2, hob]
      dsimp only
      have hneg : (s2.heap s.next).loopstage < 0 := by rw [hfr]; exact (by decide : (-1 : Int) < 0)
      rw [if_pos hneg]
      have h0 : ((setStage s.next 0 s2).heap s.next).loopstage = 0 := by simp [setStage, updFrame, setHeap]
      have he : ((setStage s.next 0 s2).heap s.next).endpos = none := by
        simp [setStage, updFrame, setHeap, hfr, newFrame]
      rw [if_pos h0, he]
      dsimp only
      unfold prepareResult
      dsimp only
      rw [parseKind]
      rw [hbody]
      · rfl
      · show s2.pos = j
        rw [← hs2, ← hs1]; exact hp
      · show s2.stack.length = j + 1
        rw [← hs2, ← hs1]; show s.stack.length + 1 = j + 1; rw [hs]
      · intro p hpj
        show s2.table p 0 = none
        rw [← hs2, ← hs1]
        show setTable s.table s.pos 0 (some s.next) p 0 = none
        unfold setTable
        rw [if_neg (by rw [hp]; omega)]
        exact ht p (by omega)
    exact congrArg (fun x => Out.bind x _) hloop

/-- `n` open parentheses, `a`, `n` closing ones. -/
def balanced (n : Nat) : Bytes := List.replicate n 0x28 ++ (asc "a" ++ List.replicate n 0x29)

theorem ofText_hit {text : Bytes} {p : Nat} {b rest : Bytes} (hp : p ≤ text.length) (h : text.drop p = b ++ rest) :
    (Stream.ofText text).matchString p b = .ok (some b, p + b.length) := by
  have := (C03_matchString (runeAt text p) (runeAt_valid _ hp) b).1 _ h
  show (do let (r, c) ← (runeAt text p).matchString b; return (r, c.pos)) = _
  rw [this]; rfl

theorem ofText_miss {text : Bytes} {p : Nat} {b : Bytes} (hp : p ≤ text.length) (h : ∀ rest, text.drop p ≠ b ++ rest) :
    (Stream.ofText text).matchString p b = .ok (none, p) := by
  have := (C03_matchString (runeAt text p) (runeAt_valid _ hp) b).2 h
  show (do let (r, c) ← (runeAt text p).matchString b; return (r, c.pos)) = _
  rw [this]; rfl

theorem means_strHit {E : PegEnv V} {d q : Nat} {i : Info} {b : Bytes} {p e : Nat} {t : Bytes}
    (h : E.st.matchString p b = .ok (some t, e)) : Means E d q (.inner (.str i b)) p (.ok (some (E.P.str t, e))) :=
  Means.str h

theorem means_strMiss {E : PegEnv V} {d q : Nat} {i : Info} {b : Bytes} {p e : Nat}
    (h : E.st.matchString p b = .ok (none, e)) : Means E d q (.inner (.str i b)) p (.ok none) :=
  Means.str h

/-- The body of `X`. -/
def parensBody : Node :=
  .choice (ri "X") [.seq { parent := some false } .array [lit "(", ref "X", lit ")"], .str {} (asc "a")]

theorem balanced_rule (P : PureOps V) (n : Nat) : ∀ j q, j ≤ n →
    ∃ v, Means ⟨P, Stream.ofText (balanced n), parens⟩ (j + 1) q (.node (.rule 0)) (n - j) (.ok (some (v, n + 1 + j))) := by
  have hlen : (balanced n).length = 2 * n + 1 := by simp [balanced, asc]; omega
  intro j
  induction j with
  | zero =>
    intro q _
    have h1 : (balanced n).drop n = asc "a" ++ List.replicate n 0x29 := by
      unfold balanced
      rw [List.drop_append_of_le_length (by simp), List.drop_replicate]; simp
    have hmiss := ofText_miss (text := balanced n) (p := n) (b := asc "(") (by omega) (by
      intro rest e
      rw [h1] at e
      exact absurd (List.cons.inj e).1 (by decide))
    have hhit := ofText_hit (text := balanced n) (p := n) (b := asc "a") (by omega) h1
    have hin : Means ⟨P, Stream.ofText (balanced n), parens⟩ 0 n (.inner parensBody) n
        (.ok (some (P.str (asc "a"), n + 1))) :=
      .choice (.altsMiss (.plain rfl rfl (.seq (.itemsMiss (.plain rfl rfl (means_strMiss hmiss)))))
        (.altsHit (.plain rfl rfl (means_strHit hhit))))
    exact ⟨_, Means.rule (q := q) (id := 0) rfl hin⟩
  | succ j ih =>
    intro q hj
    obtain ⟨v, hv⟩ := ih (n - (j + 1)) (by omega)
    have h1 : (balanced n).drop (n - (j + 1)) = asc "(" ++ (List.replicate j 0x28 ++ (asc "a" ++ List.replicate n 0x29)) := by
      unfold balanced
      rw [List.drop_append_of_le_length (by simp), List.drop_replicate]
      rw [show n - (n - (j + 1)) = j + 1 from by omega, List.replicate_succ]; rfl
    have h2 : (balanced n).drop (n + 1 + j) = asc ")" ++ List.replicate (n - (j + 1)) 0x29 := by
      unfold balanced
      rw [← List.append_assoc, List.drop_append, List.drop_of_length_le (by simp [asc])]
      rw [show n + 1 + j - (List.replicate n (40 : UInt8) ++ asc "a").length = j from by simp [asc], List.drop_replicate]
      rw [show n - j = (n - (j + 1)) + 1 from by omega, List.replicate_succ]; rfl
    have hopen := ofText_hit (text := balanced n) (by omega) h1
    have hclose := ofText_hit (text := balanced n) (by omega) h2
    rw [show n - (j + 1) + (asc "(").length = n - j from by show n - (j + 1) + 1 = n - j; omega] at hopen
    rw [show n + 1 + j + (asc ")").length = n + 1 + (j + 1) from rfl] at hclose
    have hin : ∃ w, Means ⟨P, Stream.ofText (balanced n), parens⟩ (j + 1) (n - (j + 1)) (.inner parensBody) (n - (j + 1))
        (.ok (some (w, n + 1 + (j + 1)))) :=
      ⟨_, .choice (.altsHit (.plain rfl rfl (.seq (.itemsPut (.plain rfl rfl (means_strHit hopen)) rfl
        (.itemsPut (.plain rfl rfl (.ref rfl hv)) rfl (.itemsPut (.plain rfl rfl (means_strHit hclose)) rfl .itemsEnd))))))⟩
    obtain ⟨w, hin⟩ := hin
    exact ⟨_, Means.rule (q := q) (id := 0) rfl hin⟩

/-- Balanced texts are in the language of `parens`, at any depth. -/
theorem balanced_means (P : PureOps V) (n : Nat) :
    ∃ v, TextMeans P parens (balanced n) (n + 1) (.ok (some (v, (balanced n).length))) := by
  obtain ⟨v, h⟩ := balanced_rule P n n 0 (Nat.le_refl _)
  have hlen : (balanced n).length = n + 1 + n := by simp [balanced, asc]; omega
  rw [Nat.sub_self] at h
  rw [hlen]
  exact ⟨v, .plain rfl rfl (.choice (.altsHit h))⟩

end Sample

open Sample in
/-- C40 fails: with `X: '(' X ')' | 'a'`, every text that begins with 1024 parentheses or more makes the Go code
panic with an index out of range, whatever the rest, balanced or not. -/
theorem C40_deep_nesting_panics (ops : Ops V H) (h : H) (n : Nat) (hn : 1024 ≤ n) (rest : Bytes) (k : Nat)
    (hk : 3074 ≤ k) :
    (parseString ops parens {} [] k h (List.replicate n 0x28 ++ rest)).1 = .panic .stackOverflow := by
  obtain ⟨m, rfl⟩ : ∃ m, n = 1024 + m := ⟨n - 1024, by omega⟩
  obtain ⟨k, rfl⟩ : ∃ k', k = k' + 1 := ⟨k - 1, by omega⟩
  rw [show List.replicate (1024 + m) (0x28 : UInt8) ++ rest = List.replicate 1024 0x28 ++ (List.replicate m 0x28 ++ rest) from by
    rw [← List.append_assoc, List.replicate_append_replicate]]
  have h0 := parens_overflow ops (List.replicate m 0x28 ++ rest) 1024 0 k (newState h 0) rfl (by omega) rfl rfl (fun _ _ => rfl)
  have h1 : parse (callEnv ops parens {} [] (List.replicate 1024 0x28 ++ (List.replicate m 0x28 ++ rest))) (k + 1)
      parens.root (newState h 0) = .panic .stackOverflow := by
    rw [parse]
    unfold wrap
    show parseAlts _ _ [.rule 0] _ = _
    rw [parseAlts, h0]; rfl
  unfold parseString grammarParse
  dsimp only
  unfold callEnv at h1
  rw [h1]

open Sample in
/-- C40, exactly how deep: with the same grammar and balanced parentheses, which mean a value at any depth, the text
parses at depth 1023 and less, and panics at depth 1024 and more. -/
theorem C40_limit (P : PureOps V) (h : H) (n : Nat) :
    ∃ v, TextMeans P parens (balanced n) (n + 1) (.ok (some (v, (balanced n).length))) ∧
      ∃ k, ∀ k', k ≤ k' → if n < 1024 then
          ∃ s, (parseString (P.ops H) parens {} [] k' h (balanced n)).1 = .ok (.value v, s)
        else (parseString (P.ops H) parens {} [] k' h (balanced n)).1 = .panic .stackOverflow := by
  obtain ⟨v, hm⟩ := balanced_means P n
  refine ⟨v, hm, ?_⟩
  by_cases hn : n < 1024
  · obtain ⟨k, hk⟩ := C22_engine_computes_peg P parens parens_built {} []
      ⟨rfl, by simp, by intro n hn; rw [List.mem_singleton.mp hn]; rfl⟩ h (balanced n) (n + 1) (by omega) _ hm
    refine ⟨k, fun k' hk' => ?_⟩
    rw [if_pos hn]
    have := hk k' hk'
    simp only [Answers, if_true] at this
    exact this
  · refine ⟨3074, fun k' hk' => ?_⟩
    rw [if_neg hn]
    exact C40_deep_nesting_panics _ _ _ (by omega) _ _ hk'

example : (parseString Sample.ops Sample.parens {} [] 5000 () (List.replicate 2000 0x28 ++ (asc "a" ++ List.replicate 2000 0x29))).1 =
    .panic .stackOverflow := C40_deep_nesting_panics _ _ _ (by decide) _ _ (by decide)

example : Sample.valueOf (parseString Sample.ops Sample.parens {} [] 100 () (asc "((a))")) =
    some (.arr [.arr [.str (asc "a")]]) := by decide +kernel

end Joeson
