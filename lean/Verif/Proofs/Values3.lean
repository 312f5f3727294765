import Verif.Proofs.Values2
/-!
# The meaning of a grammar made from lines has the values of its texts
-/

set_option linter.unusedVariables false
set_option linter.unusedSectionVars false

namespace Joeson.RuleText

section
variable {V : Type} {P : PureOps V} {text : Bytes} {g : Grammar}

/-- With the position where the match ends in place of the rest. -/
def toRes (N : Nat) : VRes V → Res V
  | .error e => .error e
  | .ok none => .ok none
  | .ok (some (v, s)) => .ok (some (v, N - s.length))

/-- The rest is a rest of the text. -/
def Inside (text : Bytes) (r : VRes V) : Prop := ∀ v s, r = .ok (some (v, s)) → s <:+ text

theorem inside_none : Inside (V := V) text (.ok none) := fun v s h => by cases h
theorem inside_error {e : Panic} : Inside (V := V) text (.error e) := fun v s h => by cases h
theorem inside_some {v : V} {s : Bytes} (h : s <:+ text) : Inside text (.ok (some (v, s))) := fun v' s' h' => by cases h'; exact h

theorem drop_pos {s : Bytes} (h : s <:+ text) : text.drop (text.length - s.length) = s := by
  obtain ⟨t, rfl⟩ := h
  simp

theorem own_inside {h : Bool} {p : VP} {r : VRes V} (hr : Inside text r) : Inside text (own P h p r) := by
  match r with
  | .error e => exact inside_error
  | .ok none => exact inside_none
  | .ok (some (v, s)) => exact inside_some (hr v s rfl)

theorem called_inside {N : Nat} {cb : Option Nat} {r : VRes V} (hr : Inside text r) : Inside text (called P N cb r) := by
  match r with
  | .error e => exact inside_error
  | .ok none => exact inside_none
  | .ok (some (v, s)) =>
    cases cb with
    | none => exact hr
    | some c =>
      simp only [called]
      split
      · exact inside_error
      · exact inside_none
      · exact inside_some (hr v s rfl)

theorem vstop_inside {mn : Nat} {vs : List V} {s : Bytes} (hs : s <:+ text) : Inside text (vstop P mn vs s) := by
  unfold vstop
  split
  · exact inside_none
  · exact inside_some hs

/-- The label of a finished parser is its own where no sequence uses it. -/
theorem own_eq {h : Bool} {p : VP} {i : Info} (hi : stage3.info h p i) : i.ownLabel = (!h && p.outLab != "") := by
  obtain ⟨h1, h2, h3⟩ := hi
  unfold Info.ownLabel
  rw [h1, h3]
  cases h <;> simp [Bool.and_comm]

variable (ho : ∀ v o, P.origin v o = v)
include ho

theorem finish_eq {st : Stream} {q N : Nat} {h : Bool} {p : VP} {cb : Option Nat} {i : Info} (hi : stage3.info h p i) (hc : i.cb = cb) (r : VRes V) :
    Res.finish ⟨P, st, g⟩ i q (toRes N r) = toRes N (called P N cb (own P h p r)) := by
  match r with
  | .error e => rfl
  | .ok none => rfl
  | .ok (some (v, s)) =>
    simp only [toRes, Res.finish, own, called, hc, own_eq hi, hi.1, ho, PureOps.run]
    cases cb with
    | none => rfl
    | some c =>
      simp only
      cases hcb : P.cb c (if (!h && p.outLab != "") = true then P.newMap p.outLab v else v) (N - s.length) with
      | error e => rfl
      | ok x => cases x <;> rfl

theorem node_of_inner {d : Nat} {h : Bool} {p : VP} {n : Node} (hf : Fit stage3 h none p n) {r : VRes V} {pos : Nat}
    (hm : ∀ q, Means ⟨P, Stream.ofText text, g⟩ d q (.inner n) pos (toRes text.length r)) (q : Nat) :
    Means ⟨P, Stream.ofText text, g⟩ d q (.node n) pos (toRes text.length (own P h p r)) := by
  have hfin := finish_eq (g := g) (st := Stream.ofText text) (q := q) (N := text.length) ho hf.info.1 hf.info.2 r
  have hcalled : called P text.length none (own P h p r) = own P h p r := by
    match r with
    | .error e => rfl
    | .ok none => rfl
    | .ok (some (v, s)) => rfl
  rw [hcalled] at hfin
  cases hw : n.wraps with
  | true =>
    rw [← hfin]
    exact .wrapped hf.notRule hw (hm q)
  | false =>
    have hown : own P h p r = r := by
      have h1 : n.info.ownLabel = false := by
        simp only [Node.wraps, Bool.or_eq_false_iff] at hw
        exact hw.1
      rw [own_eq hf.info.1] at h1
      match r with
      | .error e => rfl
      | .ok none => rfl
      | .ok (some (v, s)) => simp only [own, h1]; rfl
    rw [hown]
    exact .plain hf.notRule hw (hm q)

/-- The values of a sequence so far. -/
def AccOf (P : PureOps V) : Form → List (VP × V) → SeqVal V → Prop
  | .single, l, sv => sv = (match (kept l).getLast? with | none => .nothing | some v => .just v)
  | .array, l, sv => sv = (if kept l = [] then .nothing else .list (kept l))
  | .object, l, sv => ∃ o, addAll P l = .ok o ∧ sv = (match o with | none => .nothing | some v => .just v)

omit ho in
theorem kept_append (l : List (VP × V)) (p : VP) (v : V) : kept (l ++ [(p, v)]) = if p.keeps then kept l ++ [v] else kept l := by
  unfold kept
  rw [List.filter_append]
  cases h : p.keeps <;> simp [h]

omit ho in
theorem acc_value {f : Form} {l : List (VP × V)} {sv : SeqVal V} (h : AccOf P f l sv) {w : V} (hw : gather P f l = .ok w) :
    seqValue P f.repr sv = w := by
  cases f with
  | single =>
    simp only [AccOf] at h
    subst h
    simp only [gather, Except.ok.injEq] at hw
    subst hw
    cases (kept l).getLast? <;> rfl
  | array =>
    simp only [AccOf] at h
    subst h
    simp only [gather, Except.ok.injEq] at hw
    subst hw
    by_cases hk : kept l = []
    · rw [if_pos hk, hk]; rfl
    · rw [if_neg hk]; rfl
  | object =>
    obtain ⟨o, h1, rfl⟩ := h
    simp only [gather, h1, Except.map, Except.ok.injEq] at hw
    subst hw
    cases o <;> rfl

omit ho in
theorem addAll_append (l : List (VP × V)) (p : VP) (v : V) : addAll P (l ++ [(p, v)]) = (addAll P l).bind fun o => addLabelled P o p.outLab v := by
  unfold addAll
  rw [List.foldlM_append]
  simp only [List.foldlM_cons, List.foldlM_nil]
  show Except.bind _ _ = _
  congr 1
  funext o
  show Except.bind _ _ = _
  cases addLabelled P o p.outLab v <;> rfl

omit ho in
theorem put_object {i : Info} {o : Option V} {v : V} :
    seqPut P .object i (match o with | none => SeqVal.nothing | some v => .just v) v =
      (addLabelled P o i.label v).map fun o => (match o with | none => SeqVal.nothing | some v => .just v) := by
  unfold seqPut addLabelled
  dsimp only
  by_cases h0 : i.label = ""
  · rw [if_pos h0, if_pos h0]; rfl
  · rw [if_neg h0, if_neg h0]
    have hd : SeqVal.defined P (match o with | none => SeqVal.nothing | some v => .just v) = o.filter fun r => !P.isUndef r := by
      cases o with
      | none => rfl
      | some r =>
        cases h : P.isUndef r <;> simp [SeqVal.defined, Option.filter, h]
    rw [hd]
    cases o.filter fun r => !P.isUndef r with
    | none => rfl
    | some r =>
      dsimp only
      by_cases h1 : i.label = "&"
      · rw [if_pos h1, if_pos h1]
        cases P.merge v r <;> rfl
      · rw [if_neg h1, if_neg h1]
        by_cases h2 : i.label = "@"
        · rw [if_pos h2, if_pos h2]
          cases P.merge r v <;> rfl
        · rw [if_neg h2, if_neg h2]
          cases P.mapSet r i.label v <;> rfl

omit ho in
theorem acc_put {f : Form} {l : List (VP × V)} {sv : SeqVal V} (h : AccOf P f l sv) {p : VP} {b : Bool} {i : Info} (hi : stage3.info b p i) (v : V) :
    match gather P f (l ++ [(p, v)]) with
    | .ok _ => ∃ sv', seqPut P f.repr i sv v = .ok sv' ∧ AccOf P f (l ++ [(p, v)]) sv'
    | .error e => seqPut P f.repr i sv v = .error e := by
  obtain ⟨hlab, hcap, _⟩ := hi
  cases f with
  | single =>
    simp only [AccOf] at h
    subst h
    refine ⟨_, rfl, ?_⟩
    simp only [AccOf, kept_append, hcap]
    cases p.keeps <;> simp
  | array =>
    simp only [AccOf] at h
    subst h
    refine ⟨_, rfl, ?_⟩
    simp only [AccOf, kept_append, hcap]
    cases hk : p.keeps
    · simp
    · by_cases h0 : kept l = []
      · simp [h0]
      · simp [h0]
  | object =>
    obtain ⟨o, h1, rfl⟩ := h
    have hput := put_object (P := P) (i := i) (o := o) (v := v)
    rw [hlab] at hput
    simp only [gather, addAll_append, h1, Except.bind]
    cases h2 : addLabelled P o p.outLab v with
    | error e =>
      simp only [Except.map]
      rw [h2] at hput
      exact hput
    | ok o' =>
      simp only [Except.map]
      rw [h2] at hput
      refine ⟨_, hput, o', ?_, rfl⟩
      rw [addAll_append, h1]
      exact h2

/-- What is to be shown of a job at the position where `s` is left. -/
def JobYields (P : PureOps V) (g : Grammar) (text : Bytes) (d : Nat) (s : Bytes) (r : VRes V) : VJob V → Prop
  | .part h p => ∃ r0, r = own P h p r0 ∧ Inside text r0 ∧ ∀ n cb, Fit stage3 h cb p n → ∀ q,
      Means ⟨P, Stream.ofText text, g⟩ d q (.inner n) (text.length - s.length) (toRes text.length r0)
  | .core h p => ∀ n cb, Fit stage3 h cb p n → ∀ q,
      Means ⟨P, Stream.ofText text, g⟩ d q (.inner n) (text.length - s.length) (toRes text.length r)
  | .alts l => ∀ ns, Fits stage3 false l ns → ∀ q,
      Means ⟨P, Stream.ofText text, g⟩ d q (.alts ns) (text.length - s.length) (toRes text.length r)
  | .items f l acc => ∀ ns, Fits stage3 true l ns → ∀ sv, AccOf P f acc sv → ∀ q,
      Means ⟨P, Stream.ofText text, g⟩ d q (.items f.repr ns sv) (text.length - s.length) (toRes text.length r)
  | .sep o => ∀ j, FitO stage3 o j → ∀ q,
      Means ⟨P, Stream.ofText text, g⟩ d q (.sep j) (text.length - s.length) (toRes text.length r)
  | .more v o mn mx vs => ∀ nv j mn' mx', Fit stage3 false none v nv → FitO stage3 o j → (∀ k : Nat, mn' > (k : Int) ↔ k < mn) →
      (∀ k : Nat, 2 ≤ k → (¬ (0 ≤ mx' ∧ mx' ≤ (k : Int)) ↔ Room mx k)) → 1 ≤ vs.length → Room mx vs.length → ∀ q,
      Means ⟨P, Stream.ofText text, g⟩ d q (.more nv j mn' mx' vs) (text.length - s.length) (toRes text.length r)
  | .rule cb y => ∀ id, ImplV stage3 g.rules cb y id → ∀ q,
      Means ⟨P, Stream.ofText text, g⟩ d q (.node (.rule id)) (text.length - s.length) (toRes text.length r)
  | .lines ls => ∀ ns, ImplVA stage3 g.rules ls ns → ∀ q,
      Means ⟨P, Stream.ofText text, g⟩ d q (.alts ns) (text.length - s.length) (toRes text.length r)

theorem part_node {d : Nat} {s : Bytes} {h : Bool} {p : VP} {r : VRes V} (hj : JobYields P g text d s r (.part h p)) {n : Node} (hf : Fit stage3 h none p n)
    (q : Nat) : Means ⟨P, Stream.ofText text, g⟩ d q (.node n) (text.length - s.length) (toRes text.length r) := by
  obtain ⟨r0, rfl, _, hm⟩ := hj
  exact node_of_inner ho hf (hm n none hf) q

omit ho in
theorem stop_eq {st : Stream} {mn : Int} {mn' : Nat} (hmn : ∀ k : Nat, mn > (k : Int) ↔ k < mn') (vs : List V) (s : Bytes) :
    Res.stop ⟨P, st, g⟩ mn vs (text.length - s.length) = toRes text.length (vstop P mn' vs s) := by
  unfold Res.stop vstop
  by_cases h : mn > (vs.length : Int)
  · rw [if_pos h, if_pos ((hmn _).mp h)]; rfl
  · rw [if_neg h, if_neg (fun h' => h ((hmn _).mpr h'))]; rfl

variable {L : List GLine} (hL : ∀ nm cb y, (nm, cb, y) ∈ rulesOf L → ∃ id, g.lookup nm = some id ∧ ImplV stage3 g.rules cb y id)
include hL

/-- The engine's meaning has the values of the expressions. -/
theorem yields_does {d : Nat} {j : VJob V} {s : Bytes} {r : VRes V} (h : Yields P text.length L d j s r) :
    s <:+ text → Inside text r ∧ JobYields P g text d s r j := by
  induction h with
  | part _ ih =>
    intro hs
    obtain ⟨h1, h2⟩ := ih hs
    exact ⟨own_inside h1, _, rfl, h1, h2⟩
  | @lit d h lab b s =>
    intro hs
    have hs' : s <:+ text := (List.suffix_append b s).trans hs
    refine ⟨inside_some hs', ?_⟩
    intro n cb hn q
    cases hn
    have h1 := str_hit (text := text) (p := text.length - (b ++ s).length) (Nat.sub_le _ _) (drop_pos hs)
    have hle := hs.length_le
    have h2 : text.length - (b ++ s).length + b.length = text.length - s.length := by
      simp only [List.length_append] at hle ⊢; omega
    rw [h2] at h1
    exact Means.str (E := ⟨P, Stream.ofText text, g⟩) h1
  | litMiss h0 =>
    intro hs
    refine ⟨inside_none, ?_⟩
    intro n cb hn q
    cases hn
    exact Means.str (E := ⟨P, Stream.ofText text, g⟩) (str_miss (Nat.sub_le _ _) (by rw [drop_pos hs]; exact h0))
  | @re d h lab r n s h0 =>
    intro hs
    refine ⟨inside_some ((List.drop_suffix _ _).trans hs), ?_⟩
    intro n' cb hn q
    cases hn
    have h1 := re_hit (text := text) (p := text.length - s.length) (Nat.sub_le _ _) (by rw [drop_pos hs]; exact h0)
    have hle := hs.length_le
    have h2 : text.length - s.length + n = text.length - (s.drop n).length := by
      have := h1.2
      simp only [List.length_drop]
      omega
    rw [h2, drop_pos hs] at h1
    exact Means.regex (E := ⟨P, Stream.ofText text, g⟩) h1.1
  | reMiss h0 =>
    intro hs
    refine ⟨inside_none, ?_⟩
    intro n cb hn q
    cases hn
    exact Means.regex (E := ⟨P, Stream.ofText text, g⟩) (re_miss (Nat.sub_le _ _) (by rw [drop_pos hs]; exact h0))
  | name hd _ ih =>
    intro hs
    obtain ⟨h1, h2⟩ := ih hs
    refine ⟨h1, ?_⟩
    intro n cb hn q
    cases hn
    obtain ⟨id, hlk, himp⟩ := hL _ _ _ hd
    exact .ref hlk (h2 id himp q)
  | alt _ ih =>
    intro hs
    obtain ⟨h1, h2⟩ := ih hs
    refine ⟨h1, ?_⟩
    intro n cb hn q
    cases hn with
    | choice _ _ hl => exact .choice (h2 _ hl q)
  | altsEnd =>
    intro hs
    refine ⟨inside_none, ?_⟩
    intro ns hns q
    cases hns
    exact .altsEnd
  | @altsDone d p l s r _ hne ih =>
    intro hs
    obtain ⟨h1, h2⟩ := ih hs
    refine ⟨h1, ?_⟩
    intro ns hns q
    cases hns with
    | cons hn hl =>
      have hm := part_node ho h2 hn q
      match r, hne, hm with
      | .error e, _, hm => exact .altsPanic hm
      | .ok none, hne, hm => exact absurd rfl hne
      | .ok (some (v, s')), _, hm => exact .altsHit hm
  | altsMiss _ _ ih1 ih2 =>
    intro hs
    obtain ⟨_, h2⟩ := ih1 hs
    obtain ⟨h3, h4⟩ := ih2 hs
    refine ⟨h3, ?_⟩
    intro ns hns q
    cases hns with
    | cons hn hl => exact .altsMiss (part_node ho h2 hn q) (h4 _ hl q)
  | @seq d h lab ps s r _ ih =>
    intro hs
    obtain ⟨h1, h2⟩ := ih hs
    refine ⟨h1, ?_⟩
    intro n cb hn q
    cases hn with
    | @seq _ _ _ _ i rp l hi hc hr hl =>
      have hr' : rp = (formOf ps).repr := hr
      subst hr'
      refine .seq (h2 _ hl .nothing ?_ q)
      cases formOf ps with
      | single => rfl
      | array => rfl
      | object => exact ⟨none, rfl, rfl⟩
  | itemsEnd hg =>
    intro hs
    refine ⟨inside_some hs, ?_⟩
    intro ns hns sv hsv q
    cases hns
    have h1 := acc_value hsv hg
    simp only [toRes, ← h1]
    exact .itemsEnd
  | itemsMiss _ ih =>
    intro hs
    refine ⟨inside_none, ?_⟩
    intro ns hns sv hsv q
    cases hns with
    | cons hn hl => exact .itemsMiss (part_node ho (ih hs).2 hn q)
  | itemsPanic _ ih =>
    intro hs
    refine ⟨inside_error, ?_⟩
    intro ns hns sv hsv q
    cases hns with
    | cons hn hl => exact .itemsPanic (part_node ho (ih hs).2 hn q)
  | @itemsPut d f p l acc s v s' w r _ hg _ ih1 ih2 =>
    intro hs
    obtain ⟨h1, h2⟩ := ih1 hs
    obtain ⟨h3, h4⟩ := ih2 (h1 _ _ rfl)
    refine ⟨h3, ?_⟩
    intro ns hns sv hsv q
    cases hns with
    | @cons _ _ _ n l hn hl =>
      have hput := acc_put hsv hn.info.1 v
      rw [hg] at hput
      obtain ⟨sv', e1, e2⟩ := hput
      have hinfo : g.info n = n.info := by
        cases hn <;> rfl
      exact .itemsPut (part_node ho h2 hn q) (by rw [← hinfo] at e1; exact e1) (h4 _ hl sv' e2 q)
  | @itemsBad d f p l acc s v s' e _ hg ih =>
    intro hs
    refine ⟨inside_error, ?_⟩
    intro ns hns sv hsv q
    cases hns with
    | @cons _ _ _ n l hn hl =>
      have hput := acc_put hsv hn.info.1 v
      rw [hg] at hput
      have hinfo : g.info n = n.info := by
        cases hn <;> rfl
      exact .itemsPutPanic (part_node ho (ih hs).2 hn q) (by rw [← hinfo] at hput; exact hput)
  | @optDone d h lab p s r _ hne ih =>
    intro hs
    obtain ⟨h1, h2⟩ := ih hs
    refine ⟨h1, ?_⟩
    intro n cb hn q
    cases hn with
    | exist _ _ hn =>
      have hm := part_node ho h2 hn q
      match r, hne, hm with
      | .error e, _, hm => exact .existPanic hm
      | .ok none, hne, hm => exact absurd rfl hne
      | .ok (some (v, s')), _, hm => exact .existHit hm
  | optMiss _ ih =>
    intro hs
    refine ⟨inside_some hs, ?_⟩
    intro n cb hn q
    cases hn with
    | exist _ _ hn => exact .existMiss (part_node ho (ih hs).2 hn q)
  | @notHit d h lab p s x _ ih =>
    intro hs
    refine ⟨inside_none, ?_⟩
    intro n cb hn q
    cases hn with
    | not _ _ hn => exact .notHit (part_node ho (ih hs).2 hn q)
  | notMiss _ ih =>
    intro hs
    refine ⟨inside_some hs, ?_⟩
    intro n cb hn q
    cases hn with
    | not _ _ hn => exact .notMiss (part_node ho (ih hs).2 hn q)
  | notPanic _ ih =>
    intro hs
    refine ⟨inside_error, ?_⟩
    intro n cb hn q
    cases hn with
    | not _ _ hn => exact .notPanic (part_node ho (ih hs).2 hn q)
  | lookHit _ ih =>
    intro hs
    refine ⟨inside_some hs, ?_⟩
    intro n cb hn q
    cases hn with
    | look _ _ hn => exact .lookHit (part_node ho (ih hs).2 hn q)
  | lookMiss _ ih =>
    intro hs
    refine ⟨inside_none, ?_⟩
    intro n cb hn q
    cases hn with
    | look _ _ hn => exact .lookMiss (part_node ho (ih hs).2 hn q)
  | lookPanic _ ih =>
    intro hs
    refine ⟨inside_error, ?_⟩
    intro n cb hn q
    cases hn with
    | look _ _ hn => exact .lookPanic (part_node ho (ih hs).2 hn q)
  | repMiss _ ih =>
    intro hs
    refine ⟨vstop_inside hs, ?_⟩
    intro n cb hn q
    cases hn with
    | pattern _ _ hv hj hmn hmx =>
      rw [← stop_eq (g := g) (st := Stream.ofText text) hmn]
      exact .patMiss (part_node ho (ih hs).2 hv q)
  | repPanic _ ih =>
    intro hs
    refine ⟨inside_error, ?_⟩
    intro n cb hn q
    cases hn with
    | pattern _ _ hv hj hmn hmx => exact .patPanic (part_node ho (ih hs).2 hv q)
  | rep _ _ ih1 ih2 =>
    intro hs
    obtain ⟨h1, h2⟩ := ih1 hs
    obtain ⟨h3, h4⟩ := ih2 (h1 _ _ rfl)
    refine ⟨h3, ?_⟩
    intro n cb hn q
    cases hn with
    | pattern _ _ hv hj hmn hmx =>
      exact .patMore (part_node ho h2 hv q) (h4 _ _ _ _ hv hj hmn hmx (by simp) (fun m hm => by simp only [List.length_singleton]; omega) q)
  | sepNone =>
    intro hs
    refine ⟨inside_some hs, ?_⟩
    intro j hj q
    cases hj
    exact .sepNone
  | sepSome _ ih =>
    intro hs
    obtain ⟨h1, h2⟩ := ih hs
    refine ⟨h1, ?_⟩
    intro j hj q
    cases hj with
    | some hn => exact .sepSome (part_node ho h2 hn q)
  | full h0 =>
    intro hs
    refine ⟨vstop_inside hs, ?_⟩
    intro nv j mn' mx' hv hj hmn hmx hn hroom
    exact absurd hroom h0
  | noSep _ _ ih =>
    intro hs
    refine ⟨vstop_inside hs, ?_⟩
    intro nv j mn' mx' hv hj hmn hmx hn hroom q
    rw [← stop_eq (g := g) (st := Stream.ofText text) hmn]
    exact .sepMiss ((ih hs).2 _ hj q)
  | sepPanic _ _ ih =>
    intro hs
    refine ⟨inside_error, ?_⟩
    intro nv j mn' mx' hv hj hmn hmx hn hroom q
    exact .sepPanic ((ih hs).2 _ hj q)
  | noMore _ _ _ ih1 ih2 =>
    intro hs
    obtain ⟨h1, h2⟩ := ih1 hs
    refine ⟨vstop_inside hs, ?_⟩
    intro nv j mn' mx' hv hj hmn hmx hn hroom q
    rw [← stop_eq (g := g) (st := Stream.ofText text) hmn]
    exact .moreMiss (h2 _ hj q) (part_node ho (ih2 (h1 _ _ rfl)).2 hv q)
  | morePanic _ _ _ ih1 ih2 =>
    intro hs
    obtain ⟨h1, h2⟩ := ih1 hs
    refine ⟨inside_error, ?_⟩
    intro nv j mn' mx' hv hj hmn hmx hn hroom q
    exact .morePanic (h2 _ hj q) (part_node ho (ih2 (h1 _ _ rfl)).2 hv q)
  | @more d v sep mn mx vs s w s' x s'' r _ _ _ hrest ih1 ih2 ih3 =>
    intro hs
    obtain ⟨h1, h2⟩ := ih1 hs
    have hs' := h1 _ _ rfl
    obtain ⟨h3, h4⟩ := ih2 hs'
    have hs'' := h3 _ _ rfl
    obtain ⟨h5, h6⟩ := ih3 hs''
    refine ⟨h5, ?_⟩
    intro nv j mn' mx' hv hj hmn hmx hn hroom q
    have hm := h2 _ hj q
    have hm' := part_node ho h4 hv q
    have hl1 : (vs ++ [x]).length = vs.length + 1 := by simp
    by_cases hfull : 0 ≤ mx' ∧ mx' ≤ (vs.length : Int) + 1
    · have hnr : ¬ Room mx (vs ++ [x]).length := fun h => (hmx (vs.length + 1) (by omega)).mpr (by rwa [hl1] at h) (by exact_mod_cast hfull)
      have hst : r = vstop P mn (vs ++ [x]) s'' := by
        cases hrest with
        | full => rfl
        | noSep h _ => exact absurd h hnr
        | sepPanic h _ => exact absurd h hnr
        | noMore h _ _ => exact absurd h hnr
        | morePanic h _ _ => exact absurd h hnr
        | more h _ _ _ => exact absurd h hnr
      rw [hst, ← stop_eq (g := g) (st := Stream.ofText text) hmn]
      exact .moreFull hm hm' hfull
    · have hr : Room mx (vs ++ [x]).length := by
        rw [hl1]
        exact (hmx (vs.length + 1) (by omega)).mp (by exact_mod_cast hfull)
      exact .moreNext hm hm' hfull (h6 nv j mn' mx' hv hj hmn hmx (by simp) hr q)
  | text _ ih =>
    intro hs
    obtain ⟨h1, r0, rfl, h2, h3⟩ := ih hs
    refine ⟨called_inside h1, ?_⟩
    intro id himp q
    unfold ImplV at himp
    obtain ⟨n, hr, hn⟩ := himp
    rw [← finish_eq (g := g) (st := Stream.ofText text) (q := text.length - _) ho hn.info.1 hn.info.2]
    exact .rule hr (h3 n _ hn _)
  | @rank d cb ls s r _ ih =>
    intro hs
    obtain ⟨h1, h2⟩ := ih hs
    refine ⟨called_inside h1, ?_⟩
    intro id himp q
    unfold ImplV at himp
    obtain ⟨i, l, hr, hlab, hcb, hl, _⟩ := himp
    have hfin : Res.finish ⟨P, Stream.ofText text, g⟩ i (text.length - s.length) (toRes text.length r) = toRes text.length (called P text.length cb r) := by
      have hown : i.ownLabel = false := by simp [Info.ownLabel, hlab]
      match r with
      | .error e => rfl
      | .ok none => rfl
      | .ok (some (v, s')) =>
        simp only [toRes, Res.finish, called, hcb, hown, ho, PureOps.run, Bool.false_eq_true, if_false]
        cases cb with
        | none => rfl
        | some c =>
          simp only
          cases P.cb c v (text.length - s'.length) with
          | error e => rfl
          | ok x => cases x <;> rfl
    rw [← hfin]
    exact .rule hr (.choice (h2 l hl _))
  | linesEnd =>
    intro hs
    refine ⟨inside_none, ?_⟩
    intro ns hns q
    simp only [ImplVA] at hns
    subst hns
    exact .altsEnd
  | incl _ ih =>
    intro hs
    obtain ⟨h1, h2⟩ := ih hs
    refine ⟨h1, ?_⟩
    intro ns hns q
    simp only [ImplVA] at hns
    exact h2 ns hns q
  | @altDone d nm cb b ls s r _ hne ih =>
    intro hs
    obtain ⟨h1, h2⟩ := ih hs
    refine ⟨h1, ?_⟩
    intro ns hns q
    simp only [ImplVA] at hns
    obtain ⟨id, l', rfl, _, e1, e2⟩ := hns
    have hm := h2 id e1 q
    match r, hne, hm with
    | .error e, _, hm => exact .altsPanic hm
    | .ok none, hne, hm => exact absurd rfl hne
    | .ok (some (v, s')), _, hm => exact .altsHit hm
  | altMiss _ _ ih1 ih2 =>
    intro hs
    obtain ⟨_, h2⟩ := ih1 hs
    obtain ⟨h3, h4⟩ := ih2 hs
    refine ⟨h3, ?_⟩
    intro ns hns q
    simp only [ImplVA] at hns
    obtain ⟨id, l', rfl, _, e1, e2⟩ := hns
    exact .altsMiss (h2 id e1 q) (h4 _ e2 q)

end
end Joeson.RuleText
