import Verif.Spec.Means
/-!
# Rules that were put in the place of references to them

A grammar where some references are choices with the rule as only alternative means the same as the grammar with the
references, which nests rules deeper.
-/

namespace Joeson

/-- `Inl g C k n n'`: `n` is `n'` where references may have been replaced by what they refer to, at most `k` deep. Other
references occur where `k = C`. -/
inductive Inl (g : Grammar) (C : Nat) : Nat → Node → Node → Prop
  | str {k i b} : Inl g C k (.str i b) (.str i b)
  | regex {k i re} : Inl g C k (.regex i re) (.regex i re)
  | ref {i nm} : Inl g C C (.ref i nm) (.ref i nm)
  | rule {id} : Inl g C C (.rule id) (.rule id)
  | choice {k i l l'} : l.length = l'.length → (∀ (j : Nat) n n', l[j]? = some n → l'[j]? = some n' → Inl g C k n n') →
      Inl g C k (.choice i l) (.choice i l')
  | seq {k i r l l'} : l.length = l'.length → (∀ (j : Nat) n n', l[j]? = some n → l'[j]? = some n' → Inl g C k n n') →
      Inl g C k (.seq i r l) (.seq i r l')
  | exist {k i n n'} : Inl g C k n n' → Inl g C k (.exist i n) (.exist i n')
  | look {k i n n'} : Inl g C k n n' → Inl g C k (.look i n) (.look i n')
  | not {k i n n'} : Inl g C k n n' → Inl g C k (.not i n) (.not i n')
  | pat {k i v v' mn mx} : Inl g C k v v' → Inl g C k (.pattern i v none mn mx) (.pattern i v' none mn mx)
  | patJoin {k i v v' j j' mn mx} : Inl g C k v v' → Inl g C k j j' →
      Inl g C k (.pattern i v (some j) mn mx) (.pattern i v' (some j') mn mx)
  | inline {k i nm id body body'} : g.lookup nm = some id → g.rules[id]? = some body' → body.isRule = false → Inl g C k body body' →
      Inl g C (k + 1) (.choice i [body]) (.ref i nm)

/-- All of them. -/
inductive Inls (g : Grammar) (C k : Nat) : List Node → List Node → Prop
  | nil : Inls g C k [] []
  | cons {n n' l l'} : Inl g C k n n' → Inls g C k l l' → Inls g C k (n :: l) (n' :: l')

theorem Inls.of {g : Grammar} {C k : Nat} : ∀ {l l' : List Node}, l.length = l'.length →
    (∀ (j : Nat) n n', l[j]? = some n → l'[j]? = some n' → Inl g C k n n') → Inls g C k l l'
  | [], [], _, _ => .nil
  | n :: l, n' :: l', hl, h => .cons (h 0 n n' rfl rfl) (Inls.of (by simpa using hl) fun j n n' h1 h2 => h (j + 1) n n' h1 h2)

theorem Inls.to {g : Grammar} {C k : Nat} {l l' : List Node} (h : Inls g C k l l') : l.length = l'.length ∧
    (∀ (j : Nat) n n', l[j]? = some n → l'[j]? = some n' → Inl g C k n n') := by
  induction h with
  | nil => exact ⟨rfl, fun j n n' h => by simp at h⟩
  | cons hn _ ih =>
    refine ⟨by simp [ih.1], fun j a b h1 h2 => ?_⟩
    rcases j with _ | j
    · cases h1; cases h2; exact hn
    · exact ih.2 j a b (by simpa using h1) (by simpa using h2)

theorem Inl.choices {g : Grammar} {C k : Nat} {i : Info} {l l' : List Node} (h : Inls g C k l l') : Inl g C k (.choice i l) (.choice i l') :=
  .choice h.to.1 h.to.2
theorem Inl.seqs {g : Grammar} {C k : Nat} {i : Info} {r : SeqRepr} {l l' : List Node} (h : Inls g C k l l') :
    Inl g C k (.seq i r l) (.seq i r l') := .seq h.to.1 h.to.2

/-- The same for tasks. -/
inductive InlTask (g : Grammar) (C k : Nat) {V : Type} : Task V → Task V → Prop
  | node {n n'} : Inl g C k n n' → InlTask g C k (.node n) (.node n')
  | inner {n n'} : Inl g C k n n' → InlTask g C k (.inner n) (.inner n')
  | alts {l l'} : Inls g C k l l' → InlTask g C k (.alts l) (.alts l')
  | items {r l l' acc} : Inls g C k l l' → InlTask g C k (.items r l acc) (.items r l' acc)
  | sepNone : InlTask g C k (.sep none) (.sep none)
  | sepSome {j j'} : Inl g C k j j' → InlTask g C k (.sep (some j)) (.sep (some j'))
  | more {v v' mn mx vs} : Inl g C k v v' → InlTask g C k (.more v none mn mx vs) (.more v' none mn mx vs)
  | moreJoin {v v' j j' mn mx vs} : Inl g C k v v' → Inl g C k j j' →
      InlTask g C k (.more v (some j) mn mx vs) (.more v' (some j') mn mx vs)

theorem Inl.info {g : Grammar} {C k : Nat} {n n' : Node} (h : Inl g C k n n') : n.info = n'.info ∧ n.isRule = n'.isRule := by
  cases h <;> exact ⟨rfl, rfl⟩

section
variable {V : Type} {P : PureOps V} {st : Stream} {g g' : Grammar} {C : Nat}

theorem finish_same (ho : ∀ v o, P.origin v o = v) (i : Info) (q q' : Nat) (r : Res V) :
    r.finish ⟨P, st, g⟩ i q = r.finish ⟨P, st, g'⟩ i q' := by
  match r with
  | .error e => rfl
  | .ok none => rfl
  | .ok (some (v, p)) =>
    simp only [Res.finish]
    split <;> simp [ho]

theorem finish_plain (ho : ∀ v o, P.origin v o = v) {n : Node} (h : n.wraps = false) (q : Nat) (r : Res V) :
    r.finish ⟨P, st, g⟩ n.info q = r := by
  simp only [Node.wraps, Bool.or_eq_false_iff] at h
  have hcb : n.info.cb = none := by simpa using h.2
  match r with
  | .error e => rfl
  | .ok none => rfl
  | .ok (some (v, p)) => simp [Res.finish, PureOps.run, h.1, hcb, ho]

theorem alts_one {E : PegEnv V} {d q : Nat} {c : Node} {p : Nat} {r : Res V} (h : Means E d q (.alts [c]) p r) :
    Means E d q (.node c) p r := by
  cases h with
  | altsHit h => exact h
  | altsPanic h => exact h
  | altsMiss h h' => cases h'; exact h

/-- A rule by number, once its body is known. -/
theorem means_body (ho : ∀ v o, P.origin v o = v) {d q' id p : Nat} {body : Node} {r : Res V} (hr : g.rules[id]? = some body)
    (hb : body.isRule = false) (h : ∀ q, Means ⟨P, st, g⟩ d q (.node body) p r) : Means ⟨P, st, g⟩ (d + 1) q' (.node (.rule id)) p r := by
  replace h := h p
  cases h with
  | rule => simp [Node.isRule] at hb
  | noRule => simp [Node.isRule] at hb
  | plain _ hw h =>
    have := Means.rule (q := q') (E := ⟨P, st, g⟩) hr h
    rwa [finish_plain ho hw] at this
  | wrapped _ hw h => exact Means.rule (E := ⟨P, st, g⟩) hr h

theorem Means.inl (ho : ∀ v o, P.origin v o = v) (hl : ∀ nm, g.lookup nm = g'.lookup nm) (hlen : g.rules.length = g'.rules.length)
    (hr : ∀ (id : Nat) body body', g.rules[id]? = some body → g'.rules[id]? = some body' → Inl g' C C body body') {d q : Nat} {t : Task V} {p : Nat} {r : Res V}
    (h : Means ⟨P, st, g⟩ d q t p r) : ∀ {k d' : Nat} {t' : Task V} (q' : Nat), InlTask g' C k t t' → d + k ≤ d' →
      Means ⟨P, st, g'⟩ d' q' t' p r := by
  have hinfo : ∀ {k : Nat} {c c' : Node}, Inl g' C k c c' → g.info c = g'.info c' := by
    intro k c c' hc
    cases hc with
    | @rule id =>
      simp only [Grammar.info]
      by_cases hid : id < g.rules.length
      · have h1 := List.getElem?_eq_getElem hid
        have h2 := List.getElem?_eq_getElem (hlen ▸ hid)
        rw [h1, h2]
        simpa using (hr id _ _ h1 h2).info.1
      · rw [List.getElem?_eq_none (by omega), List.getElem?_eq_none (by omega)]
    | _ => rfl
  induction h with
  | @rule d q id p body r hb _ ih =>
    intro k d' t' q' ht hd
    cases ht with
    | node hi =>
    cases hi with
    | rule =>
    have hb : g.rules[id]? = some body := hb
    have hid : id < g.rules.length := (List.getElem?_eq_some_iff.mp hb).1
    have h2 := List.getElem?_eq_getElem (hlen ▸ hid)
    have hbb := hr id _ _ hb h2
    obtain ⟨d'', rfl⟩ : ∃ d'', d' = d'' + 1 := ⟨d' - 1, by omega⟩
    rw [finish_same (g := g) (g' := g') ho _ p p, hbb.info.1]
    exact .rule h2 (ih p (.inner hbb) (by omega))
  | @noRule d q id p hb =>
    intro k d' t' q' ht hd
    cases ht with
    | node hi =>
    cases hi with
    | rule =>
    refine .noRule ?_
    rw [List.getElem?_eq_none_iff] at hb ⊢
    exact hlen ▸ hb
  | plain hn hw _ ih =>
    intro k d' t' q' ht hd
    cases ht with
    | node hi =>
    refine .plain (hi.info.2 ▸ hn) ?_ (ih q' (.inner hi) hd)
    rw [Node.wraps, ← hi.info.1]; exact hw
  | wrapped hn hw _ ih =>
    intro k d' t' q' ht hd
    cases ht with
    | node hi =>
    rw [finish_same (g := g) (g' := g') ho _ _ q', hi.info.1]
    refine .wrapped (hi.info.2 ▸ hn) ?_ (ih q' (.inner hi) hd)
    rw [Node.wraps, ← hi.info.1]; exact hw
  | link _ ih =>
    intro k d' t' q' ht hd
    cases ht with
    | inner hi =>
    cases hi with
    | rule => exact .link (ih q' (.node .rule) hd)
  | str h =>
    intro k d' t' q' ht hd
    cases ht with
    | inner hi => cases hi; exact .str h
  | strPanic h =>
    intro k d' t' q' ht hd
    cases ht with
    | inner hi => cases hi; exact .strPanic h
  | regex h =>
    intro k d' t' q' ht hd
    cases ht with
    | inner hi => cases hi; exact .regex h
  | regexPanic h =>
    intro k d' t' q' ht hd
    cases ht with
    | inner hi => cases hi; exact .regexPanic h
  | ref h _ ih =>
    intro k d' t' q' ht hd
    cases ht with
    | inner hi => cases hi; exact .ref ((hl _).symm.trans h) (ih q' (.node .rule) hd)
  | undefinedRef h =>
    intro k d' t' q' ht hd
    cases ht with
    | inner hi => cases hi; exact .undefinedRef ((hl _).symm.trans h)
  | choice _ ih =>
    intro k d' t' q' ht hd
    cases ht with
    | inner hi =>
    cases hi with
    | choice h1 h2 => exact .choice (ih q' (.alts (.of h1 h2)) hd)
    | @inline k i nm id body body' h1 h2 h3 h4 =>
      obtain ⟨d'', rfl⟩ : ∃ d'', d' = d'' + 1 := ⟨d' - 1, by omega⟩
      refine .ref h1 (means_body ho h2 (h4.info.2 ▸ h3) fun q'' => ?_)
      exact alts_one (ih q'' (.alts (.cons h4 .nil)) (by omega))
  | altsEnd =>
    intro k d' t' q' ht hd
    cases ht with
    | alts h => cases h; exact .altsEnd
  | altsHit _ ih =>
    intro k d' t' q' ht hd
    cases ht with
    | alts h => cases h with | cons h1 h2 => exact .altsHit (ih q' (.node h1) hd)
  | altsPanic _ ih =>
    intro k d' t' q' ht hd
    cases ht with
    | alts h => cases h with | cons h1 h2 => exact .altsPanic (ih q' (.node h1) hd)
  | altsMiss _ _ ih ih' =>
    intro k d' t' q' ht hd
    cases ht with
    | alts h => cases h with | cons h1 h2 => exact .altsMiss (ih q' (.node h1) hd) (ih' q' (.alts h2) hd)
  | seq _ ih =>
    intro k d' t' q' ht hd
    cases ht with
    | inner hi => cases hi with | seq h1 h2 => exact .seq (ih q' (.items (.of h1 h2)) hd)
  | itemsEnd =>
    intro k d' t' q' ht hd
    cases ht with
    | items h => cases h; exact .itemsEnd
  | itemsMiss _ ih =>
    intro k d' t' q' ht hd
    cases ht with
    | items h => cases h with | cons h1 h2 => exact .itemsMiss (ih q' (.node h1) hd)
  | itemsPanic _ ih =>
    intro k d' t' q' ht hd
    cases ht with
    | items h => cases h with | cons h1 h2 => exact .itemsPanic (ih q' (.node h1) hd)
  | itemsPut _ hp _ ih ih' =>
    intro k d' t' q' ht hd
    cases ht with
    | items h => cases h with | cons h1 h2 => exact .itemsPut (ih q' (.node h1) hd) (hinfo h1 ▸ hp) (ih' q' (.items h2) hd)
  | itemsPutPanic _ hp ih =>
    intro k d' t' q' ht hd
    cases ht with
    | items h => cases h with | cons h1 h2 => exact .itemsPutPanic (ih q' (.node h1) hd) (hinfo h1 ▸ hp)
  | existHit _ ih =>
    intro k d' t' q' ht hd
    cases ht with
    | inner hi => cases hi with | exist h => exact .existHit (ih q' (.node h) hd)
  | existMiss _ ih =>
    intro k d' t' q' ht hd
    cases ht with
    | inner hi => cases hi with | exist h => exact .existMiss (ih q' (.node h) hd)
  | existPanic _ ih =>
    intro k d' t' q' ht hd
    cases ht with
    | inner hi => cases hi with | exist h => exact .existPanic (ih q' (.node h) hd)
  | lookHit _ ih =>
    intro k d' t' q' ht hd
    cases ht with
    | inner hi => cases hi with | look h => exact .lookHit (ih q' (.node h) hd)
  | lookMiss _ ih =>
    intro k d' t' q' ht hd
    cases ht with
    | inner hi => cases hi with | look h => exact .lookMiss (ih q' (.node h) hd)
  | lookPanic _ ih =>
    intro k d' t' q' ht hd
    cases ht with
    | inner hi => cases hi with | look h => exact .lookPanic (ih q' (.node h) hd)
  | notHit _ ih =>
    intro k d' t' q' ht hd
    cases ht with
    | inner hi => cases hi with | not h => exact .notHit (ih q' (.node h) hd)
  | notMiss _ ih =>
    intro k d' t' q' ht hd
    cases ht with
    | inner hi => cases hi with | not h => exact .notMiss (ih q' (.node h) hd)
  | notPanic _ ih =>
    intro k d' t' q' ht hd
    cases ht with
    | inner hi => cases hi with | not h => exact .notPanic (ih q' (.node h) hd)
  | patMiss _ ih =>
    intro k d' t' q' ht hd
    cases ht with
    | inner hi =>
    cases hi with
    | pat h => exact Means.patMiss (E := ⟨P, st, g'⟩) (ih q' (.node h) hd)
    | patJoin h h' => exact Means.patMiss (E := ⟨P, st, g'⟩) (ih q' (.node h) hd)
  | patPanic _ ih =>
    intro k d' t' q' ht hd
    cases ht with
    | inner hi =>
    cases hi with
    | pat h => exact .patPanic (ih q' (.node h) hd)
    | patJoin h h' => exact .patPanic (ih q' (.node h) hd)
  | patMore _ _ ih ih' =>
    intro k d' t' q' ht hd
    cases ht with
    | inner hi =>
    cases hi with
    | pat h => exact .patMore (ih q' (.node h) hd) (ih' q' (.more h) hd)
    | patJoin h h' => exact .patMore (ih q' (.node h) hd) (ih' q' (.moreJoin h h') hd)
  | sepNone =>
    intro k d' t' q' ht hd
    cases ht with
    | sepNone => exact Means.sepNone (E := ⟨P, st, g'⟩)
  | sepSome _ ih =>
    intro k d' t' q' ht hd
    cases ht with
    | sepSome h => exact .sepSome (ih q' (.node h) hd)
  | sepMiss _ ih =>
    intro k d' t' q' ht hd
    cases ht with
    | more h => exact Means.sepMiss (E := ⟨P, st, g'⟩) (ih q' .sepNone hd)
    | moreJoin h h' => exact Means.sepMiss (E := ⟨P, st, g'⟩) (ih q' (.sepSome h') hd)
  | sepPanic _ ih =>
    intro k d' t' q' ht hd
    cases ht with
    | more h => exact .sepPanic (ih q' .sepNone hd)
    | moreJoin h h' => exact .sepPanic (ih q' (.sepSome h') hd)
  | moreMiss _ _ ih ih' =>
    intro k d' t' q' ht hd
    cases ht with
    | more h => exact Means.moreMiss (E := ⟨P, st, g'⟩) (ih q' .sepNone hd) (ih' q' (.node h) hd)
    | moreJoin h h' => exact Means.moreMiss (E := ⟨P, st, g'⟩) (ih q' (.sepSome h') hd) (ih' q' (.node h) hd)
  | morePanic _ _ ih ih' =>
    intro k d' t' q' ht hd
    cases ht with
    | more h => exact .morePanic (ih q' .sepNone hd) (ih' q' (.node h) hd)
    | moreJoin h h' => exact .morePanic (ih q' (.sepSome h') hd) (ih' q' (.node h) hd)
  | moreFull _ _ hf ih ih' =>
    intro k d' t' q' ht hd
    cases ht with
    | more h => exact Means.moreFull (E := ⟨P, st, g'⟩) (ih q' .sepNone hd) (ih' q' (.node h) hd) hf
    | moreJoin h h' => exact Means.moreFull (E := ⟨P, st, g'⟩) (ih q' (.sepSome h') hd) (ih' q' (.node h) hd) hf
  | moreNext _ _ hf _ ih ih' ih'' =>
    intro k d' t' q' ht hd
    cases ht with
    | more h => exact .moreNext (ih q' .sepNone hd) (ih' q' (.node h) hd) hf (ih'' q' (.more h) hd)
    | moreJoin h h' => exact .moreNext (ih q' (.sepSome h') hd) (ih' q' (.node h) hd) hf (ih'' q' (.moreJoin h h') hd)

end
end Joeson
