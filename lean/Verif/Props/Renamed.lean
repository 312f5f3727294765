import Verif.Proofs.Renamed2
import Verif.Props.Visits
/-!
# C85: names, numbers and unused rules do not matter
-/

namespace Joeson
variable {V H : Type} {φ : Nat → Nat} {ρ : String → String}

mutual
theorem Node.all_renOk {g g' : Grammar} : ∀ n : Node, n.Below g.numRules → (∀ nm ∈ n.refs, g'.lookup (ρ nm) = (g.lookup nm).map φ) → n.All (RenOk g g' φ ρ)
  | .str _ _, _, _ => .str trivial
  | .regex _ _, _, _ => .regex trivial
  | .choice _ l, hb, hr => .choice trivial (all_renOkAll l (by cases hb; assumption) (by rwa [Node.refs] at hr))
  | .seq _ _ l, hb, hr => .seq trivial (all_renOkAll l (by cases hb; assumption) (by rwa [Node.refs] at hr))
  | .exist _ n, hb, hr => .exist trivial (Node.all_renOk n (by cases hb; assumption) (by rwa [Node.refs] at hr))
  | .look _ n, hb, hr => .look trivial (Node.all_renOk n (by cases hb; assumption) (by rwa [Node.refs] at hr))
  | .not _ n, hb, hr => .not trivial (Node.all_renOk n (by cases hb; assumption) (by rwa [Node.refs] at hr))
  | .pattern _ v none _ _, hb, hr => .pattern trivial (Node.all_renOk v (by cases hb; assumption) (by rwa [Node.refs] at hr)) (fun c hc => by cases hc)
  | .pattern _ v (some j) _ _, hb, hr => by
    rw [Node.refs] at hr
    cases hb with
    | pattern h1 h2 =>
      exact .pattern trivial (Node.all_renOk v h1 fun nm hnm => hr nm (List.mem_append_left _ hnm))
        (fun c hc => by cases hc; exact Node.all_renOk j (h2 j rfl) fun nm hnm => hr nm (List.mem_append_right _ hnm))
  | .ref _ nm, _, hr => .ref (hr nm (by simp [Node.refs]))
  | .rule _, hb, _ => .rule (by cases hb; assumption)
theorem all_renOkAll {g g' : Grammar} : ∀ l : List Node, (∀ c ∈ l, c.Below g.numRules) → (∀ nm ∈ refsAll l, g'.lookup (ρ nm) = (g.lookup nm).map φ) →
    ∀ c ∈ l, c.All (RenOk g g' φ ρ)
  | [], _, _ => fun c hc => by cases hc
  | n :: l, hb, hr => by
    rw [refsAll] at hr
    intro c hc
    rcases List.mem_cons.mp hc with hc | hc
    · exact hc ▸ Node.all_renOk n (hb n (by simp)) fun nm hnm => hr nm (List.mem_append_left _ hnm)
    · exact all_renOkAll l (fun c hc => hb c (by simp [hc])) (fun nm hnm => hr nm (List.mem_append_right _ hnm)) c hc
end

/-- Parsing, of strings or tokens, with a grammar that contains another. -/
theorem grammarParse_ren (ops : Ops V H) (hops : ops.NameBlind ρ) (g g' : Grammar) (hg : g.Built) (hw : g.Within φ ρ g') (st : Stream)
    (report : Nat → Nat → Nat → Except Panic Report) (tr : Trace) (o : CtxOptions) (k : Nat) (h : H) (start : Nat) :
    (grammarParse ops st report g' tr o k h start).2 = (grammarParse ops st report g tr o k h start).2 ∧
    RenOut ρ (fun x y => y.1 = x.1 ∧ RenSt g.numRules φ x.2 y.2)
      (grammarParse ops st report g tr o k h start).1 (grammarParse ops st report g' tr o k h start).1 := by
  have h0 : RenSt g.numRules φ (newState (V := V) h start) (newState h start) :=
    ⟨rfl, rfl, rfl, rfl, rfl, rfl, rfl, fun _ => ⟨rfl, rfl, rfl, rfl, fun _ => rfl, fun m hm => by cases hm⟩, (fun a ha => absurd ha (Nat.not_lt_zero a)),
      fun _ _ _ => rfl, fun _ _ _ => rfl, (fun _ _ _ _ ha => by cases ha), (fun a ha => by cases ha)⟩
  let env : Env V H := { ops := ops, st := st, g := g, trace := if o.debug then { tr with stack := true } else tr, skipLog := o.skipLog }
  have hroot : g.root.All (RenOk g g' φ ρ) := by
    obtain ⟨i, l, hr, -, -, hl⟩ := hg.root
    rw [hr]
    refine .choice trivial fun c hc => ?_
    obtain ⟨id, rfl, hid⟩ := hl c hc
    exact .rule hid
  have key := parse_ren (env := env) hw hg.noAlias hg.lookup hops (fun n hn => Node.all_renOk n (hg.rules n hn) (hw.names n hn)) k g.root hroot _ _ h0
  rw [← hw.root] at key
  unfold grammarParse
  extract_lets old t' env1 restored env2
  have he1 : env1 = env.swap g' := rfl
  have he2 : env2 = env := rfl
  rw [he1, he2]
  clear_value restored t'
  revert key
  generalize parse env k g.root (newState h start) = x
  generalize parse (env.swap g') k g'.root (newState h start) = y
  intro key
  cases x <;> cases y <;> first | exact key.elim | skip
  · rename_i a b
    obtain ⟨r, s⟩ := a
    obtain ⟨r', s'⟩ := b
    obtain ⟨hr, hs, -⟩ := key
    dsimp only at hr hs ⊢
    subst hr
    rw [hs.pos, scanRows_ren (env := env) hw hs]
    show _ ∧ RenOut ρ _ (if s.pos ≠ st.len then _ else _ : _ × _).1 _
    split
    · dsimp only [env]
      cases report s.pos (scanRows s g.numRules s.pos (st.len + 1 - s.pos) (s.pos, s.pos)).2 (scanRows s g.numRules s.pos (st.len + 1 - s.pos) (s.pos, s.pos)).1 with
      | error e => exact ⟨rfl, .inl rfl⟩
      | ok rep => exact ⟨rfl, rfl, hs⟩
    · cases r' with
      | none => exact ⟨rfl, rfl, hs⟩
      | some v => exact ⟨rfl, rfl, hs⟩
  · exact ⟨rfl, key⟩
  · exact ⟨rfl, trivial⟩

/-- C85: a grammar that contains the rules of another, in any order, under any names, and any others besides, parses every text in the same way: the same value
or the same error message, the same store, and the same callbacks at the same positions in the same order; the same panic, up to the name of an undefined
rule; and if one parse does not end neither does the other. For all callbacks, options and tracing, and for left recursive grammars as well. -/
theorem C85_same_parse (ops : Ops V H) (hops : ops.NameBlind ρ) (g g' : Grammar) (hg : g.Built) (hw : g.Within φ ρ g') (tr : Trace) (opts : List ParseOption)
    (k : Nat) (h : H) (text : Bytes) :
    SameWay ρ (parseString ops g tr opts k h text) (parseString ops g' tr opts k h text) := by
  obtain ⟨h1, h2⟩ := grammarParse_ren ops hops g g' hg hw (Stream.ofText text) (runeReport text) tr (opts.foldl CtxOptions.apply {}) k h 0
  unfold parseString
  revert h1 h2
  generalize grammarParse ops (Stream.ofText text) (runeReport text) g tr (opts.foldl CtxOptions.apply {}) k h 0 = x
  generalize grammarParse ops (Stream.ofText text) (runeReport text) g' tr (opts.foldl CtxOptions.apply {}) k h 0 = y
  obtain ⟨x, t⟩ := x
  obtain ⟨y, t'⟩ := y
  intro h1 h2
  cases x <;> cases y <;> first | exact h2.elim | skip
  · obtain ⟨h2, h3⟩ := h2
    exact ⟨h2, h1, h3.h, h3.pos, h3.counter, h3.calls⟩
  · exact ⟨h2, h1⟩
  · exact h1

/-- The same for tokens: grammar.go:93-104. -/
theorem C85_same_parse_of_tokens (ops : Ops V H) (hops : ops.NameBlind ρ) (g g' : Grammar) (hg : g.Built) (hw : g.Within φ ρ g') (st : Stream)
    (report : Nat → Nat → Nat → Except Panic Report) (tr : Trace) (o : CtxOptions) (k : Nat) (h : H) (start : Nat) :
    SameWay ρ (grammarParse ops st report g tr o k h start) (grammarParse ops st report g' tr o k h start) := by
  obtain ⟨h1, h2⟩ := grammarParse_ren ops hops g g' hg hw st report tr o k h start
  revert h1 h2
  generalize grammarParse ops st report g tr o k h start = x
  generalize grammarParse ops st report g' tr o k h start = y
  obtain ⟨x, t⟩ := x
  obtain ⟨y, t'⟩ := y
  intro h1 h2
  cases x <;> cases y <;> first | exact h2.elim | skip
  · obtain ⟨h2, h3⟩ := h2
    exact ⟨h2, h1, h3.h, h3.pos, h3.counter, h3.calls⟩
  · exact ⟨h2, h1⟩
  · exact h1

mutual
theorem Node.renamed_id : ∀ n : Node, n.renamed id id = n
  | .str _ _ => rfl
  | .regex _ _ => rfl
  | .choice i l => by rw [Node.renamed, renamedAll_id l]; rfl
  | .seq i r l => by rw [Node.renamed, renamedAll_id l]; rfl
  | .exist i n => by rw [Node.renamed, Node.renamed_id n]; rfl
  | .look i n => by rw [Node.renamed, Node.renamed_id n]; rfl
  | .not i n => by rw [Node.renamed, Node.renamed_id n]; rfl
  | .pattern i v none _ _ => by rw [Node.renamed, Node.renamed_id v]; rfl
  | .pattern i v (some j) _ _ => by rw [Node.renamed, Node.renamed_id v, Node.renamed_id j]; rfl
  | .ref _ _ => rfl
  | .rule _ => rfl
theorem renamedAll_id : ∀ l : List Node, renamedAll id id l = l
  | [] => rfl
  | n :: l => by rw [renamedAll, Node.renamed_id n, renamedAll_id l]
end

theorem Ops.nameBlind_id (ops : Ops V H) : ops.NameBlind id := fun _ _ _ => rfl

/-- C85: rules that are not used do not matter, for any values and callbacks. `lk`: the names of the larger grammar. -/
theorem C85_unused_rules (ops : Ops V H) (g : Grammar) (hg : g.Built) (extra : List Node) (lk : String → Option Nat)
    (hlk : ∀ n ∈ g.rules, ∀ nm ∈ n.refs, lk nm = g.lookup nm) (tr : Trace) (opts : List ParseOption) (k : Nat) (h : H) (text : Bytes) :
    SameWay id (parseString ops g tr opts k h text) (parseString ops { rules := g.rules ++ extra, lookup := lk, root := g.root } tr opts k h text) := by
  have hw : g.Within id id { rules := g.rules ++ extra, lookup := lk, root := g.root } := by
    refine ⟨fun _ _ _ _ h => h, fun i n hn => ?_, fun n hn nm hnm => ?_, (Node.renamed_id _).symm⟩
    · rw [Node.renamed_id]
      exact List.getElem?_append_left (List.getElem?_eq_some_iff.mp hn).1 ▸ hn
    · rw [Option.map_id]
      exact hlk n hn nm hnm
  exact C85_same_parse ops ops.nameBlind_id g _ hg hw tr opts k h text

/-! `E: E '-' N | N` with `N: '1' | '2'`, which is left recursive, inside a grammar with a rule before and one after them, where `N` comes first
and they are called `digit` and `difference`. -/

namespace Sample

def between : Grammar where
  rules := [
    .str (ri "unused") (asc "x"),
    .choice (ri "digit") [.str {} (asc "1"), .str {} (asc "2")],
    .choice (ri "difference") [.seq { parent := some false } .array [ref "difference", lit "-", ref "digit"], ref "digit"],
    .choice (ri "also unused") [ref "E", ref "nowhere"]]
  lookup := lookupIn [("unused", 0), ("digit", 1), ("difference", 2), ("also unused", 3)]
  root := .choice {} [.rule 2]

def newNames (nm : String) : String := if nm = "E" then "difference" else if nm = "N" then "digit" else nm

theorem minus_within_between : minus.Within (fun i => 2 - i) newNames between := by
  refine ⟨fun i j hi hj h => ?_, fun i n hn => ?_, fun n hn nm hnm => ?_, rfl⟩
  · have hi : i < 2 := hi
    have hj : j < 2 := hj
    omega
  · match i, hn with
    | 0, hn => cases hn; rfl
    | 1, hn => cases hn; rfl
    | i + 2, hn => cases hn
  · simp only [minus, List.mem_cons, List.not_mem_nil, or_false] at hn
    rcases hn with rfl | rfl
    · simp [Node.refs, refsAll, ref, lit] at hnm
      rcases hnm with rfl | rfl <;> rfl
    · simp [Node.refs, refsAll] at hnm

end Sample

example (k : Nat) (text : Bytes) : SameWay Sample.newNames (parseString Sample.ops Sample.minus {} [] k () text) (parseString Sample.ops Sample.between {} [] k () text) :=
  C85_same_parse Sample.ops (fun _ _ _ => rfl) Sample.minus Sample.between Sample.minus_built Sample.minus_within_between {} [] k () text

example (k : Nat) (text : Bytes) : SameWay id (parseString Sample.ops Sample.minus {} [] k () text)
    (parseString Sample.ops
      { rules := Sample.minus.rules ++ [.choice (Sample.ri "F") [Sample.ref "E", Sample.ref "nowhere"]]
        lookup := Sample.lookupIn [("E", 0), ("N", 1), ("F", 2)]
        root := Sample.minus.root } {} [] k () text) :=
  C85_unused_rules Sample.ops Sample.minus Sample.minus_built _ _ (by
    intro n hn nm hnm
    simp only [Sample.minus, List.mem_cons, List.not_mem_nil, or_false] at hn
    rcases hn with rfl | rfl
    · simp [Node.refs, refsAll, Sample.ref, Sample.lit] at hnm
      rcases hnm with rfl | rfl <;> rfl
    · simp [Node.refs, refsAll] at hnm) {} [] k () text

/-- Both read `1-2-1`. -/
example : ∃ v s s', (parseString Sample.ops Sample.minus {} [] 40 () (asc "1-2-1")).1 = .ok (.value v, s) ∧
    (parseString Sample.ops Sample.between {} [] 40 () (asc "1-2-1")).1 = .ok (.value v, s') := ⟨_, _, _, rfl, rfl⟩

/-- A name that is mentioned must be changed in every place: where the rule is called otherwise and the mention is not, the rule is not found. -/
example :
    let g : Grammar := { Sample.minus with lookup := Sample.lookupIn [("E", 0), ("digit", 1)] }
    parse ({ ops := Sample.ops, st := Stream.ofText (asc "1"), g := g } : Env Ast Unit) 40 g.root (newState () 0) = .panic (.undefinedRef "N") := rfl

end Joeson
