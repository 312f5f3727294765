import Verif.Spec.Indirect
import Verif.Proofs.LeftText2
/-!
# Computing the values of a text, with left recursion through helpers

An executable version of `YieldsI`, for examples.
-/

namespace Joeson.RuleText

variable {V : Type}

/-- Are we inside the rule `nm` that began at `s`? -/
def at? (c : Around V) (nm : String) (s : Bytes) : Bool := match c with
  | some (nm', s', _) => decide (nm' = nm ∧ s' = s)
  | none => false

variable (P : PureOps V) (N : Nat) (L : List GLine) (W : List String)

/-- The rules as a function. `none`: `k` steps, or `d` nested rules, were not enough. -/
def irun : Nat → Around V → Nat → LJob V → Bytes → Option (VRes V)
  | 0, _, _, _, _ => none
  | k + 1, c, d, j, s =>
    match j with
    | .part h p => match irun k c d (.core h p) s with
      | some r => some (own P h p r)
      | none => none
    | .core _ (.lit _ b) => match after b s with
      | some s' => some (.ok (some (P.str b, s')))
      | none => some (.ok none)
    | .core _ (.re _ r) => match r.find s with
      | some (0, n) => some (.ok (some (P.str (s.take n), s.drop n)))
      | _ => some (.ok none)
    | .core _ (.name _ nm _) =>
      let call := match (rulesOf L).find? (·.1 == nm) with
        | some x => if nm ∈ mentionsIn L then
            if nm ∈ W then match c with
              | some (_, s', _) => if s' = s then irun k c d (.body x.2.1 x.2.2) s else none
              | none => none
            else irun k c d (.rule nm x.2.1 x.2.2) s
          else none
        | none => none
      match c with
      | some (nm', s', x) => if nm' = nm ∧ s' = s then match d with
          | _ + 1 => some (.ok x)
          | 0 => none
        else call
      | none => call
    | .core _ (.alt _ l) => irun k c d (.alts l) s
    | .alts [] => some (.ok none)
    | .alts (p :: l) => match irun k c d (.part false p) s with
      | some (.ok (some x)) => some (.ok (some x))
      | some (.error e) => some (.error e)
      | some (.ok none) => irun k c d (.alts l) s
      | none => none
    | .core _ (.seq _ l) => irun k c d (.items (formOf l) l []) s
    | .items f [] acc => match gather P f acc with
      | .ok v => some (.ok (some (v, s)))
      | .error _ => none
    | .items f (p :: l) acc => match irun k c d (.part true p) s with
      | some (.ok none) => some (.ok none)
      | some (.error e) => some (.error e)
      | some (.ok (some (v, s'))) => match gather P f (acc ++ [(p, v)]) with
        | .ok _ => irun k c d (.items f l (acc ++ [(p, v)])) s'
        | .error e => some (.error e)
      | none => none
    | .core h (.opt _ p) => match irun k c d (.part h p) s with
      | some (.ok (some x)) => some (.ok (some x))
      | some (.error e) => some (.error e)
      | some (.ok none) => some (.ok (some (P.undef, s)))
      | none => none
    | .core _ (.not _ p) => match irun k c d (.part false p) s with
      | some (.ok (some _)) => some (.ok none)
      | some (.error e) => some (.error e)
      | some (.ok none) => some (.ok (some (P.undef, s)))
      | none => none
    | .core _ (.look _ p) => match irun k c d (.part false p) s with
      | some (.ok (some (v, _))) => some (.ok (some (v, s)))
      | some (.error e) => some (.error e)
      | some (.ok none) => some (.ok none)
      | none => none
    | .core _ (.rep _ v sep mn mx) => match irun k c d (.part false v) s with
      | some (.ok (some (x, s'))) => irun k c d (.more v sep mn mx [x]) s'
      | some (.error e) => some (.error e)
      | some (.ok none) => some (vstop P mn [] s)
      | none => none
    | .sep none => some (.ok (some (P.undef, s)))
    | .sep (some p) => irun k c d (.part false p) s
    | .more v sep mn mx vs =>
      if roomB mx vs.length then
        match irun k c d (.sep sep) s with
        | some (.ok (some (_, s'))) => match irun k c d (.part false v) s' with
          | some (.ok (some (x, s''))) => irun k c d (.more v sep mn mx (vs ++ [x])) s''
          | some (.error e) => some (.error e)
          | some (.ok none) => some (vstop P mn vs s)
          | none => none
        | some (.error e) => some (.error e)
        | some (.ok none) => some (vstop P mn vs s)
        | none => none
      else some (vstop P mn vs s)
    | .rule nm cb b =>
      if nm = "" ∨ nm ∉ mentionsIn L then irun k c d (.body cb b) s
      else if nm ∈ W then none
      else if at? c nm s then none
      else growRun (fun x => irun k (some (nm, s, x)) d (.body cb b) s) k none
    | .body cb (.text e) => match d with
      | d + 1 => match irun k c d (.part false e.vp) s with
        | some r => some (called P N cb r)
        | none => none
      | 0 => none
    | .body cb (.rank ls) => match d with
      | d + 1 => match irun k c d (.lines ls) s with
        | some r => some (called P N cb r)
        | none => none
      | 0 => none
    | .lines [] => some (.ok none)
    | .lines (.incl _ _ _ :: ls) => irun k c d (.lines ls) s
    | .lines (.alt nm cb b :: ls) => match irun k c d (.rule nm cb b) s with
      | some (.ok (some x)) => some (.ok (some x))
      | some (.error e) => some (.error e)
      | some (.ok none) => irun k c d (.lines ls) s
      | none => none

variable {P N L W}

theorem irun_sound : ∀ (k : Nat) (c : Around V) (d : Nat) (j : LJob V) (s : Bytes) (r : VRes V), irun P N L W k c d j s = some r → YieldsI P N L W c d j s r
  | 0, _, _, _, _, _, h => by cases h
  | k + 1, c, d, .part a p, s, r, h => by
    simp only [irun] at h
    split at h
    · rename_i h1; cases h; exact .part (irun_sound k c d _ s _ h1)
    · cases h
  | k + 1, c, d, .core a (.lit lab b), s, r, h => by
    simp only [irun] at h
    have := after_spec b s
    split at h <;> rename_i h1 <;> rw [h1] at this <;> cases h
    · dsimp only at this; subst this; exact .lit
    · exact .litMiss this
  | k + 1, c, d, .core a (.re lab re), s, r, h => by
    simp only [irun] at h
    split at h
    · rename_i hr; cases h; exact .re hr
    · rename_i hr; cases h; exact .reMiss fun n hn => hr n hn
  | k + 1, c, d, .core a (.name lab nm q), s, r, h => by
    match c, d, h with
    | none, d, h =>
      simp only [irun] at h
      split at h
      · rename_i y hy
        have h1 := List.mem_of_find?_eq_some hy
        have h2 := List.find?_some hy
        obtain ⟨x, c', b⟩ := y
        simp only [beq_iff_eq] at h2
        subst h2
        split at h
        · split at h
          · cases h
          · exact .name ‹_› (fun x h => by cases h) ‹_› h1 (irun_sound k _ d _ s r h)
        · cases h
      · cases h
    | some (nm', s', x), d, h' =>
      clear h
      have h := h'
      clear h'
      simp only [irun] at h
      split at h
      · rename_i he
        obtain ⟨rfl, rfl⟩ := he
        split at h
        · cases h
          exact .again rfl
        · cases h
      · rename_i he
        split at h
        · rename_i y hy
          have h1 := List.mem_of_find?_eq_some hy
          have h2 := List.find?_some hy
          obtain ⟨x, c', b⟩ := y
          simp only [beq_iff_eq] at h2
          subst h2
          split at h
          · split at h
            · split at h
              · rename_i hs
                subst hs
                exact .help ‹_› rfl h1 (irun_sound k _ d _ _ r h)
              · cases h
            · refine .name ‹_› (fun x h => ?_) ‹_› h1 (irun_sound k _ d _ s r h)
              cases h
              exact he ⟨rfl, rfl⟩
          · cases h
        · cases h
  | k + 1, c, d, .core a (.alt lab l), s, r, h => .alt (irun_sound k c d _ s r h)
  | k + 1, c, d, .alts [], s, r, h => by cases h; exact .altsEnd
  | k + 1, c, d, .alts (p :: l), s, r, h => by
    simp only [irun] at h
    split at h
    · rename_i h1; cases h; exact .altsDone (irun_sound k c d _ s _ h1) (by simp)
    · rename_i h1; cases h; exact .altsDone (irun_sound k c d _ s _ h1) (by simp)
    · rename_i h1; exact .altsMiss (irun_sound k c d _ s _ h1) (irun_sound k c d _ s _ h)
    · cases h
  | k + 1, c, d, .core a (.seq lab l), s, r, h => .seq (irun_sound k c d _ s r h)
  | k + 1, c, d, .items f [] acc, s, r, h => by
    simp only [irun] at h
    split at h
    · rename_i h1; cases h; exact .itemsEnd h1
    · cases h
  | k + 1, c, d, .items f (p :: l) acc, s, r, h => by
    simp only [irun] at h
    split at h
    · rename_i h1; cases h; exact .itemsMiss (irun_sound k c d _ s _ h1)
    · rename_i h1; cases h; exact .itemsPanic (irun_sound k c d _ s _ h1)
    · rename_i h1
      split at h
      · rename_i h2; exact .itemsPut (irun_sound k c d _ s _ h1) h2 (irun_sound k c d _ _ _ h)
      · rename_i h2; cases h; exact .itemsBad (irun_sound k c d _ s _ h1) h2
    · cases h
  | k + 1, c, d, .core a (.opt lab p), s, r, h => by
    simp only [irun] at h
    split at h
    · rename_i h1; cases h; exact .optDone (irun_sound k c d _ s _ h1) (by simp)
    · rename_i h1; cases h; exact .optDone (irun_sound k c d _ s _ h1) (by simp)
    · rename_i h1; cases h; exact .optMiss (irun_sound k c d _ s _ h1)
    · cases h
  | k + 1, c, d, .core a (.not lab p), s, r, h => by
    simp only [irun] at h
    split at h
    · rename_i h1; cases h; exact .notHit (irun_sound k c d _ s _ h1)
    · rename_i h1; cases h; exact .notPanic (irun_sound k c d _ s _ h1)
    · rename_i h1; cases h; exact .notMiss (irun_sound k c d _ s _ h1)
    · cases h
  | k + 1, c, d, .core a (.look lab p), s, r, h => by
    simp only [irun] at h
    split at h
    · rename_i h1; cases h; exact .lookHit (irun_sound k c d _ s _ h1)
    · rename_i h1; cases h; exact .lookPanic (irun_sound k c d _ s _ h1)
    · rename_i h1; cases h; exact .lookMiss (irun_sound k c d _ s _ h1)
    · cases h
  | k + 1, c, d, .core a (.rep lab v sep mn mx), s, r, h => by
    simp only [irun] at h
    split at h
    · rename_i h1; exact .rep (irun_sound k c d _ s _ h1) (irun_sound k c d _ _ _ h)
    · rename_i h1; cases h; exact .repPanic (irun_sound k c d _ s _ h1)
    · rename_i h1; cases h; exact .repMiss (irun_sound k c d _ s _ h1)
    · cases h
  | k + 1, c, d, .sep none, s, r, h => by cases h; exact .sepNone
  | k + 1, c, d, .sep (some p), s, r, h => .sepSome (irun_sound k c d _ s r h)
  | k + 1, c, d, .more v sep mn mx vs, s, r, h => by
    simp only [irun] at h
    split at h
    · rename_i hr
      have hr := (roomB_spec mx vs.length).mp hr
      split at h
      · rename_i h1
        split at h
        · rename_i h2; exact .more hr (irun_sound k c d _ s _ h1) (irun_sound k c d _ _ _ h2) (irun_sound k c d _ _ _ h)
        · rename_i h2; cases h; exact .morePanic hr (irun_sound k c d _ s _ h1) (irun_sound k c d _ _ _ h2)
        · rename_i h2; cases h; exact .noMore hr (irun_sound k c d _ s _ h1) (irun_sound k c d _ _ _ h2)
        · cases h
      · rename_i h1; cases h; exact .sepPanic hr (irun_sound k c d _ s _ h1)
      · rename_i h1; cases h; exact .noSep hr (irun_sound k c d _ s _ h1)
      · cases h
    · rename_i hr
      cases h
      exact .full fun h' => hr ((roomB_spec mx vs.length).mpr h')
  | k + 1, c, d, .rule nm cb b, s, r, h => by
    simp only [irun] at h
    split at h
    · rename_i he
      exact .inside he (irun_sound k c d _ s r h)
    · rename_i he0
      have he : nm ≠ "" := fun h => he0 (.inl h)
      have hmem : nm ∈ mentionsIn L := Decidable.of_not_not fun h => he0 (.inr h)
      split at h
      · cases h
      rename_i hW
      split at h
      · cases h
      rename_i hno
      have hc : ∀ y, c ≠ some (nm, s, y) := by
        rintro y rfl
        simp [at?] at hno
      obtain ⟨n, x, h0, hg, h1 | ⟨e, rfl, h1, h2⟩⟩ := growRun_sound _ k none h
      · obtain ⟨rfl, h1, h2⟩ := h1
        exact .grown x hW hc he hmem h0 hg h1 fun i hi => irun_sound k _ d _ s _ (h2 i hi)
      · exact .grownPanic x hW hc he hmem h0 hg (fun i hi => irun_sound k _ d _ s _ (h1 i hi)) (irun_sound k _ d _ s _ h2)
  | k + 1, c, d + 1, .body cb (.text e), s, r, h => by
    simp only [irun] at h
    split at h
    · rename_i h1; cases h; exact .text (irun_sound k c d _ s _ h1)
    · cases h
  | k + 1, c, d + 1, .body cb (.rank ls), s, r, h => by
    simp only [irun] at h
    split at h
    · rename_i h1; cases h; exact .rank (irun_sound k c d _ s _ h1)
    · cases h
  | k + 1, c, 0, .body cb (.text e), s, r, h => by cases h
  | k + 1, c, 0, .body cb (.rank ls), s, r, h => by cases h
  | k + 1, c, d, .lines [], s, r, h => by cases h; exact .linesEnd
  | k + 1, c, d, .lines (.incl _ _ _ :: ls), s, r, h => .incl (irun_sound k c d _ s r h)
  | k + 1, c, d, .lines (.alt nm cb b :: ls), s, r, h => by
    simp only [irun] at h
    split at h
    · rename_i h1; cases h; exact .altDone (irun_sound k c d _ s _ h1) (by simp)
    · rename_i h1; cases h; exact .altDone (irun_sound k c d _ s _ h1) (by simp)
    · rename_i h1; exact .altMiss (irun_sound k c d _ s _ h1) (irun_sound k c d _ s _ h)
    · cases h

end Joeson.RuleText
