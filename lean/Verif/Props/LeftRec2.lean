import Verif.Proofs.LeftRec4
import Verif.Props.Peg
import Verif.Proofs.SkipCache2
import Verif.Proofs.LeftAssoc
/-! # Left recursion: C34, C48 -/

namespace Joeson
variable {V H : Type}

/-- The meaning of the whole grammar on a text, with direct left recursion. -/
def TextMeansL (P : PureOps V) (g : Grammar) (text : Bytes) (d : Nat) (r : Res V) : Prop :=
  ∃ k, lpeg ⟨P, Stream.ofText text, g⟩ k d none g.root 0 0 = r.out

theorem newState_memoL (E : PegEnv V) (env : Env V H) (h : H) {p : Nat} (hp : p ≤ env.st.len) :
    MemoL E env (newState h p) :=
  ⟨newState_inv env _ h hp, fun _ _ _ h => by simp [newState] at h, fun _ _ _ h => by simp [newState] at h⟩

/-- The invariant between the rules of the top rank. -/
structure MTop (E : PegEnv V) (env : Env V H) (B : Prop) (k d : Nat) (s : St V H) : Prop where
  memo : MemoL E env s
  busy : BusyOof E k d s
  depth : B ∨ s.stack.length + d ≤ stackCap

theorem MTop.setup {E : PegEnv V} {env : Env V H} {B : Prop} {k d : Nat} :
    SimSetup env (MTop E env B k d) (NextL E env) (fun _ => False) where
  refl := NextL.refl
  trans := NextL.trans
  reset := fun _ h h1 h2 => h.reset h1 h2
  aux := NextL.aux
  keep := fun hm hn => ⟨hn.memo hm.memo, hm.busy.next hn, hm.depth.imp_right fun h => by rw [hn.ext.stack]; exact h⟩
  pos := fun hm => hm.memo.inv.pos
  hit := fun _ h => h.elim
  hitPos := fun h => h

/-- The top rank. -/
theorem top_simL {E : PegEnv V} {env : Env V H} {B : Prop} (hops : env.ops = E.P.ops H) (hst : env.st = E.st)
    (hq : QuietL env) (hval : env.st.Valid) (hg : env.g = E.g) (hb : env.g.Built) (k d : Nat) (h : H)
    (hd : B ∨ d ≤ stackCap) {p : Nat} (hp : p ≤ env.st.len) :
    SimR B (NextL E env (newState h p)) (lpeg E k d none env.g.root 0 p) (parse env k env.g.root (newState h p)) := by
  obtain ⟨i, l, hr, h1, h2, h3⟩ := hb.root
  obtain ⟨D, hD⟩ := sizeBound_exists env.g
  cases k with
  | zero => exact SimR.oof
  | succ k =>
    have hroot := hb.rootOk (fun _ => False) True
    rw [hr] at hroot ⊢
    rw [parse, lpeg_node E k d none 0 p (by simp)]
    unfold wrap
    have hw : ((Node.choice i l).info.ownLabel || (Node.choice i l).info.cb.isSome) = false := by
      simp [Node.info, h2, Info.ownLabel, h1]
    simp only [hw, Bool.false_eq_true, if_false]
    rw [parseKind]
    have hm0 : MTop E env B k d (newState h p) :=
      ⟨newState_memoL E env h hp, fun _ _ _ h => by simp [newState] at h, by simpa [newState] using hd⟩
    refine SimR.imp (alts_simT (Okn := fun n => ∃ id, n = .rule id ∧ id < env.g.numRules) (ev0 := fun n p => lpeg E k d none n 0 p)
      (ev := fun n p => lpeg E k d none n 0 p) MTop.setup (fun _ _ => Out.le_refl _) ?_ l (newState h p) False ?_ hm0
      (fun h => h)) fun _ h => h.1
    · intro n s ⟨id, hn, hid⟩ hm
      subst hn
      cases k with
      | zero => exact SimR.oof
      | succ k =>
        have hwf := hb.wfT (T := True) (nn := fun _ => False) (Or.inl trivial)
        have := rule_simL (B := B) (c := none) (q := 0) (d := d) hq hval hg hwf hb.noAlias hops hst
          (parse_simL hq hval hg hwf hb.noAlias hops hst hD k) hD hid hm.memo hm.busy (Or.inl rfl) hm.depth
        by_cases ho : lpeg E (k + 1) d none (.rule id) 0 s.pos = .oof
        · show SimT _ _ _ _ _ (lpeg E (k + 1) d none (.rule id) 0 s.pos) _
          rw [ho]; exact SimR.oof
        · exact SimR.imp this fun t ht => ⟨ht.1, fun x => x.elim (fun x => absurd x ho) fun x => x⟩
    · intro c hc
      obtain ⟨id, h, h'⟩ := h3 c hc
      exact ⟨id, h, h'⟩

/-- From the meaning to `ParseString`. -/
theorem answers_of_lpeg {P : PureOps V} {g : Grammar} (hg : g.Built) {tr : Trace} {opts : List ParseOption}
    (hn : NoTrace g tr opts) (hl : tr.loop = false) (h : H) {text : Bytes} {d : Nat} {r : Res V}
    (hm : TextMeansL P g text d r) {B : Prop} (hd : B ∨ d ≤ stackCap) : ∃ k, ∀ k', k ≤ k' →
      (B ∧ (parseString (P.ops H) g tr opts k' h text).1 = .panic .stackOverflow) ∨
      Answers text r (parseString (P.ops H) g tr opts k' h text).1 := by
  obtain ⟨k, hk⟩ := hm
  refine ⟨k, fun k' hk' => ?_⟩
  have hpeg := Out.le_eq (lpeg_mono _ k k' d d none none hk' (Nat.le_refl _) trivial g.root 0 0)
    (by rw [hk]; exact r.out_ne_oof)
  rw [hk] at hpeg
  have hloop : (callEnv (P.ops H) g tr opts text).trace.loop = false := by
    unfold callEnv
    dsimp only
    split <;> exact hl
  have hsim := top_simL (E := ⟨P, Stream.ofText text, g⟩) (env := callEnv (P.ops H) g tr opts text) (B := B)
    rfl rfl ⟨hn.quiet _ _, hloop⟩ (Stream.ofText_valid text) rfl hg k' d h hd (p := 0) (Nat.zero_le _)
  rw [show (callEnv (P.ops H) g tr opts text).g.root = g.root from rfl, hpeg] at hsim
  exact (answers_of_sim hg h hsim).imp_right (·.1)

/-! ## C34 -/

/-- C34: direct left recursion. When the grammar means `r` on the text, where a rule that calls itself at
its own start position is grown from a failing seed (`lpeg`), `ParseString` returns exactly `r`. -/
theorem C34_engine_computes_growth (P : PureOps V) (g : Grammar) (hg : g.Built) (tr : Trace)
    (opts : List ParseOption) (hn : NoTrace g tr opts) (hl : tr.loop = false) (h : H) (text : Bytes) (d : Nat)
    (hd : d ≤ 1024) (r : Res V) (hm : TextMeansL P g text d r) :
    ∃ k, ∀ k', k ≤ k' → Answers text r (parseString (P.ops H) g tr opts k' h text).1 := by
  obtain ⟨k, hk⟩ := answers_of_lpeg hg hn hl h hm (B := False) (Or.inr hd)
  exact ⟨k, fun k' hk' => (hk k' hk').resolve_left fun h => h.1⟩

/-- The meaning with left recursion extends the meaning without. -/
theorem C34_growth_extends_peg (P : PureOps V) (g : Grammar) (text : Bytes) (d : Nat) (r : Res V)
    (hm : TextMeans P g text d r) : TextMeansL P g text d r := by
  obtain ⟨k, hk⟩ := (means_iff _ _ _ _ _ _).mp hm
  refine ⟨k + 1, ?_⟩
  have := Out.le_eq (peg_le_lpeg ⟨P, Stream.ofText text, g⟩ k d none g.root 0 0 (fun _ _ h => absurd rfl h))
    (by rw [hk]; exact r.out_ne_oof)
  rw [this, hk]

/-- C34: rule `E: E op T | T` as first rule, with a callback that does not fail (or none). If the text is
`t0 op t1 ... op tn`, of any length, for any operators and operands, then `ParseString` returns the value
nested to the left. -/
theorem C34_left_associative (P : PureOps V) (g : Grammar) (hg : g.Built) (tr : Trace) (opts : List ParseOption)
    (hn : NoTrace g tr opts) (hl : tr.loop = false) (h : H) (text : Bytes) (d : Nat) (hd : d + 2 ≤ 1024)
    (id : Nat) (i j r : Info) (nm : String) (op t t' : Node) (hE : LeftAssoc g id i j r nm op t t')
    (hroot : ∃ ri l, g.root = .choice ri (.rule id :: l)) (fin : V → Nat → V)
    (hfin : ∀ v e, Res.finish ⟨P, Stream.ofText text, g⟩ i 0 (.ok (some (v, e))) = .ok (some (fin v e, e)))
    (t0 : V) (f0 : Nat) (ht0 : GivesIn ⟨P, Stream.ofText text, g⟩ (d + 1) id 0 t' 0 (some (t0, f0)))
    (l : List (V × V × Nat)) (hops : Operands ⟨P, Stream.ofText text, g⟩ (d + 1) id 0 op t f0 l text.length) :
    ∃ k, ∀ k', k ≤ k' → ∃ s, (parseString (P.ops H) g tr opts k' h text).1 =
      .ok (.value (leftNest P g fin (.ref r nm) op t (fin t0 f0) l), s) := by
  obtain ⟨K, hK⟩ := LeftAssoc.means (E := ⟨P, Stream.ofText text, g⟩) hE hfin ht0 hops
  have hm : TextMeansL P g text (d + 2) (.ok (some (leftNest P g fin (.ref r nm) op t (fin t0 f0) l, text.length))) := by
    refine ⟨K + 1, ?_⟩
    obtain ⟨ri, l', hr⟩ := hroot
    obtain ⟨i', l'', hr', h1, h2, -⟩ := hg.root
    rw [hr] at hr' ⊢
    cases hr'
    rw [lpeg_node _ K (d + 2) none 0 0 (by simp)]
    have hw : ((Node.choice ri (.rule id :: l')).info.ownLabel || (Node.choice ri (.rule id :: l')).info.cb.isSome) = false := by
      simp [Node.info, h2, Info.ownLabel, h1]
    simp only [hw, Bool.false_eq_true, if_false]
    rw [pegKind, pegChoice, hK K (Nat.le_refl _) 0, Out.bind_ok]
    rfl
  obtain ⟨k, hk⟩ := C34_engine_computes_growth P g hg tr opts hn hl h text (d + 2) hd _ hm
  refine ⟨k, fun k' hk' => ?_⟩
  have := hk k' hk'
  unfold Answers at this
  dsimp only at this
  rw [if_pos rfl] at this
  exact this

namespace Sample

/-- The digit of an operand. -/
def digit (b : Bool) : Bytes := if b then asc "2" else asc "1"

/-- `-n` for every operand. -/
def minusText : List Bool → Bytes
  | [] => []
  | b :: bs => asc "-" ++ digit b ++ minusText bs

/-- Values of operators and operands, and where the operands end. -/
def minusOps : Nat → List Bool → List (Ast × Ast × Nat)
  | _, [] => []
  | p, b :: bs => (.str (asc "-"), .str (digit b), p + 2) :: minusOps (p + 2) bs

theorem match_yes {text : Bytes} {p : Nat} {b rest : Bytes} (hp : p ≤ text.length) (h : text.drop p = b ++ rest) :
    (Stream.ofText text).matchString p b = .ok (some b, p + b.length) := by
  have := (C03_matchString (runeAt text p) (runeAt_valid text hp) b).1 rest h
  simp only [Stream.ofText, this]
  rfl

theorem match_no {text : Bytes} {p : Nat} {b : Bytes} (hp : p ≤ text.length) (h : ∀ rest, text.drop p ≠ b ++ rest) :
    (Stream.ofText text).matchString p b = .ok (none, p) := by
  have := (C03_matchString (runeAt text p) (runeAt_valid text hp) b).2 h
  simp only [Stream.ofText, this]
  rfl

theorem minus_left : LeftAssoc minus 0 (ri "E") { parent := some false } { parent := some false } "E" (lit "-")
    (ref "N") (ref "N") := by
  constructor <;> rfl

theorem lpeg_str (E : PegEnv Ast) (k d : Nat) (c : Ctx Ast) (q p : Nat) {i : Info} {b : Bytes}
    (hw : (Node.str i b).wraps = false) : lpeg E (k + 1) d c (.str i b) q p =
      (do
        let (m, e) ← Out.ofExcept (E.st.matchString p b)
        .ok (m.map fun t => (E.P.str t, e))) := by
  rw [lpeg_node E k d c q p (by simp)]
  unfold Node.wraps at hw
  rw [hw]
  rfl

/-- The operand. -/
theorem minus_N {text : Bytes} {p q : Nat} {b : Bool} {rest : Bytes} (hp : p ≤ text.length)
    (h : text.drop p = digit b ++ rest) : GivesIn ⟨pure, Stream.ofText text, minus⟩ 1 0 q (ref "N") p
      (some (.str (digit b), p + 1)) := by
  refine ⟨5, ?_⟩
  have hbody : ∀ x : Seed Ast, ruleBody ⟨pure, Stream.ofText text, minus⟩
      (fun n p' => lpeg ⟨pure, Stream.ofText text, minus⟩ 3 0 (some (1, x)) n p p') 3
      (.choice (ri "N") [.str {} (asc "1"), .str {} (asc "2")]) p = .ok (some (.str (digit b), p + 1)) := by
    intro x
    unfold ruleBody
    rw [pegKind, pegChoice, lpeg_str _ 2 0 _ p p rfl]
    cases b with
    | false =>
      rw [show (PegEnv.st ⟨pure, Stream.ofText text, minus⟩).matchString p (asc "1") = _ from match_yes hp h]
      rfl
    | true =>
      rw [show (PegEnv.st ⟨pure, Stream.ofText text, minus⟩).matchString p (asc "1") = _ from
        match_no hp fun r hr => by rw [h] at hr; exact absurd hr (by simp [digit, asc])]
      dsimp only [Out.ofExcept]
      rw [Out.bind_ok]
      dsimp only [Option.map]
      rw [Out.bind_ok, pegChoice, lpeg_str _ 2 0 _ p p rfl,
        show (PegEnv.st ⟨pure, Stream.ofText text, minus⟩).matchString p (asc "2") = _ from match_yes hp h]
      rfl
  rw [ref, lpeg_node _ 4 1 _ q p (by simp)]
  have hl : minus.lookup "N" = some 1 := by decide +kernel
  simp only [Node.info, Info.ownLabel, Option.isSome_none, Bool.or_false, pegKind, hl]
  rw [if_neg (by decide +kernel)]
  rw [lpeg_rule_succ ⟨pure, Stream.ofText text, minus⟩ 3 0 _ q p (body := .choice (ri "N") [.str {} (asc "1"), .str {} (asc "2")]) rfl]
  rw [show lrSeed (some (0, (Seed.unknown : Seed Ast))) q 1 p = none from by simp [lrSeed]]
  dsimp only
  rw [if_neg (by decide +kernel)]
  unfold ruleGrow
  dsimp only
  rw [hbody, Out.bind_ok]
  dsimp only
  rw [growSeed, hbody, Out.bind_ok]
  dsimp only
  rw [if_pos (Nat.le_refl _)]

theorem minus_ops {text : Bytes} : ∀ (bs : List Bool) (p : Nat), p ≤ text.length → text.drop p = minusText bs →
    Operands ⟨pure, Stream.ofText text, minus⟩ 1 0 0 (lit "-") (ref "N") p (minusOps p bs) text.length
  | [], p, hp, h => by
    have hp' : p = text.length := by
      have := congrArg List.length h
      simp [minusText] at this
      omega
    have hn : GivesIn ⟨pure, Stream.ofText text, minus⟩ 1 0 0 (lit "-") p none := by
      refine ⟨1, ?_⟩
      rw [lit, lpeg_str _ 0 1 _ 0 p rfl, show (PegEnv.st ⟨pure, Stream.ofText text, minus⟩).matchString p (asc "-") = _ from
        match_no hp fun r hr => by rw [h] at hr; exact absurd hr (by simp [minusText, asc])]
      rfl
    have := Operands.noOp (t := ref "N") hn
    subst hp'
    exact this
  | b :: bs, p, hp, h => by
    have hl : p + 2 ≤ text.length := by
      have := congrArg List.length h
      cases b <;> simp [minusText, asc, digit] at this <;> omega
    have h1 : text.drop (p + 1) = digit b ++ minusText bs := by
      rw [← List.drop_drop, h]; cases b <;> rfl
    have h2 : text.drop (p + 2) = minusText bs := by
      rw [← List.drop_drop, h]; cases b <;> rfl
    refine .more (p1 := p + 1) ⟨1, ?_⟩ (minus_N (by omega) h1) (by omega) (minus_ops bs (p + 2) hl h2)
    rw [lit, lpeg_str _ 0 1 _ 0 p rfl, show (PegEnv.st ⟨pure, Stream.ofText text, minus⟩).matchString p (asc "-") = _ from
        match_yes hp (rest := digit b ++ minusText bs) (by rw [h, minusText, List.append_assoc])]
    rfl

/-- Nested to the left. -/
def minusValue : Ast → List Bool → Ast
  | v, [] => v
  | v, b :: bs => minusValue (.arr [v, .str (digit b)]) bs

theorem minusValue_eq (v : Ast) (bs : List Bool) : ∀ p, leftNest pure minus (fun v _ => v) (ref "E") (lit "-") (ref "N") v (minusOps p bs) =
    minusValue v bs := by
  induction bs generalizing v with
  | nil => intro p; rfl
  | cons b bs ih => intro p; exact ih _ (p + 2)

end Sample

/-- `C34_left_associative` on `E: E '-' N | N` and every text `n0-n1-...-nk` over the digits 1 and 2. -/
example (b : Bool) (bs : List Bool) : ∃ k, ∀ k', k ≤ k' → ∃ s,
    (parseString (Sample.pure.ops Unit) Sample.minus {} [] k' () (Sample.digit b ++ Sample.minusText bs)).1 =
      .ok (.value (Sample.minusValue (.str (Sample.digit b)) bs), s) := by
  have h1 : 1 ≤ (Sample.digit b ++ Sample.minusText bs).length := by cases b <;> simp [Sample.digit, asc]
  have := C34_left_associative (H := Unit) Sample.pure Sample.minus Sample.minus_built {} [] (Sample.noTrace _ (by decide))
    rfl () (Sample.digit b ++ Sample.minusText bs) 0 (by omega) 0 _ _ _ _ _ _ _ Sample.minus_left ⟨_, _, rfl⟩
    (fun v _ => v) (fun _ _ => rfl) (.str (Sample.digit b)) 1 (Sample.minus_N (Nat.zero_le _) rfl) _
    (Sample.minus_ops bs 1 h1 (by cases b <;> rfl))
  rw [show Node.ref { parent := some false } "E" = Sample.ref "E" from rfl, Sample.minusValue_eq] at this
  exact this

example : Sample.minusValue (.str (asc "1")) [true, false] =
    .arr [.arr [.str (asc "1"), .str (asc "2")], .str (asc "1")] := rfl

/-- `C34_engine_computes_growth` and `C34_growth_extends_peg`: a text with a meaning. -/
example : TextMeansL Sample.pure Sample.minus (asc "1-2") 2
    (.ok (some (.arr [.str (asc "1"), .str (asc "2")], 3))) := ⟨20, by decide +kernel⟩

example : Sample.minus.Built ∧ NoTrace Sample.minus {} [] ∧ TextMeans Sample.pure Sample.rep (asc "aab") 2
    (.ok (some (.arr [.arr [.str (asc "a"), .str (asc "a")], .arr [.str (asc "b")]], 3))) :=
  ⟨Sample.minus_built, Sample.noTrace _ (by decide), Sample.rep_means⟩

/-! ## C48 -/

/-- C48 for direct left recursion. Let the grammar mean `r` on the text when the rules in `f` are not
cached (rules that call themselves at their start position need their own entry, so they are not in
`f`). Then `ParseString` answers `r` with those rules uncached, and with every rule cached.

What is missing: left recursion through other rules, where the claim is false, see
`C48_stale_entry`. -/
theorem C48_direct_partial (P : PureOps V) (g : Grammar) (hg : g.Built) (tr : Trace) (opts : List ParseOption)
    (hn : NoTrace g tr opts) (hl : tr.loop = false) (h : H) (text : Bytes) (d : Nat) (hd : d ≤ 1024) (r : Res V)
    (f : Nat → Bool) (hm : TextMeansL P (g.setSkip f) text d r) :
    ∃ k, ∀ k', k ≤ k' → Answers text r (parseString (P.ops H) (g.setSkip f) tr opts k' h text).1 ∧
      Answers text r (parseString (P.ops H) (g.setSkip fun _ => false) tr opts k' h text).1 := by
  have hn' : ∀ f, NoTrace (g.setSkip f) tr opts := fun f => ⟨hn.trace, hn.opts, fun n hmn => by
    obtain ⟨id, hid⟩ := List.mem_iff_getElem?.mp hmn
    rw [Grammar.setSkip_rules] at hid
    cases hb : g.rules[id]? with
    | none => rw [hb] at hid; cases hid
    | some b =>
      rw [hb] at hid
      cases hid
      rw [Node.setSkip_debug]
      exact hn.rules b (List.mem_of_getElem? hb)⟩
  have hm' : TextMeansL P (g.setSkip fun _ => false) text d r := by
    obtain ⟨k, hk⟩ := hm
    refine ⟨k + 1, ?_⟩
    have := Out.le_eq (lpeg_setSkip_le ⟨P, Stream.ofText text, g⟩ f hg.noAlias k d none none g.root 0 0 (Or.inl rfl))
      (fun h => r.out_ne_oof (hk.symm.trans h))
    exact this.trans hk
  obtain ⟨k1, h1⟩ := C34_engine_computes_growth P _ (hg.setSkip f) tr opts (hn' f) hl h text d hd r hm
  obtain ⟨k2, h2⟩ := C34_engine_computes_growth P _ (hg.setSkip _) tr opts (hn' _) hl h text d hd r hm'
  exact ⟨max k1 k2, fun k' hk' => ⟨h1 k' (by omega), h2 k' (by omega)⟩⟩

/-- Skipping the cache for `N` in `E: E '-' N | N`. -/
example : TextMeansL Sample.pure (Sample.minus.setSkip fun id => id == 1) (asc "1-2") 2
    (.ok (some (.arr [.str (asc "1"), .str (asc "2")], 3))) := ⟨20, by decide +kernel⟩

namespace Sample

/-- `E: X 'a' | Y 'b' | 'n'`, `X: E` and `Y: X`: left recursion through two chains of rules. -/
def stale : Grammar where
  rules := [
    .choice (ri "E") [.seq { parent := some false } .single [ref "X", lit "a"],
      .seq { parent := some false } .single [ref "Y", lit "b"], .str {} (asc "n")],
    .ref (ri "X") "E", .ref (ri "Y") "X"]
  lookup := lookupIn [("E", 0), ("X", 1), ("Y", 2)]
  root := .choice {} [.rule 0]

/-- `S: E 'z' | X 'y'`, `E: X | N`, `X: E '-' N` and `N: '1' | '2'`: after the growth of `E`, the entry
of `X` that was used last stays. -/
def leftover : Grammar where
  rules := [
    .choice (ri "S") [.seq { parent := some false } .single [ref "E", lit "z"],
      .seq { parent := some false } .single [ref "X", lit "y"]],
    .choice (ri "E") [ref "X", ref "N"],
    .seq (ri "X") .array [ref "E", lit "-", ref "N"],
    .choice (ri "N") [.str {} (asc "1"), .str {} (asc "2")]]
  lookup := lookupIn [("S", 0), ("E", 1), ("X", 2), ("N", 3)]
  root := .choice {} [.rule 0]

end Sample

/-- C48 is false when the left recursion goes through other rules. In `stale` the entry of `Y`, made
while the seed of `E` was a failure, is not wiped when the seed has grown: "nb" is rejected at 1. With
`Y` uncached, it is parsed. -/
theorem C48_stale_entry :
    Sample.errorOf (parseString Sample.ops Sample.stale {} [] 60 () (asc "nb")) = some 1 ∧
    Sample.valueOf (parseString Sample.ops (Sample.stale.setSkip fun id => id == 2) {} [] 60 () (asc "nb")) =
      some (.str (asc "n")) := by decide +kernel

/-- Also the other way round. In `leftover` the entry of `X` made with the last but one seed of `E`
survives the growth of `E`, and is used by `X 'y'`: "1-2y" is accepted. With `X` uncached it is not. -/
theorem C48_leftover_entry :
    Sample.valueOf (parseString Sample.ops Sample.leftover {} [] 60 () (asc "1-2y")) =
      some (.arr [.str (asc "1"), .str (asc "2")]) ∧
    Sample.errorOf (parseString Sample.ops (Sample.leftover.setSkip fun id => id == 2) {} [] 60 () (asc "1-2y")) =
      some 2 := by decide +kernel

end Joeson
