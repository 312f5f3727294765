import Verif.Spec.Values
import Verif.Proofs.Lang6
/-!
# Computing the values of a text

An executable version of `Yields`, for examples.
-/

namespace Joeson.RuleText

variable {V : Type} (P : PureOps V) (N : Nat) (L : List GLine)

/-- The rules as a function. `none`: `k` steps, or `d` nested rules, were not enough. -/
def vrun : Nat → Nat → VJob V → Bytes → Option (VRes V)
  | 0, _, _, _ => none
  | k + 1, d, j, s =>
    match j with
    | .part h p => match vrun k d (.core h p) s with
      | some r => some (own P h p r)
      | none => none
    | .core _ (.lit _ b) => match after b s with
      | some s' => some (.ok (some (P.str b, s')))
      | none => some (.ok none)
    | .core _ (.re _ r) => match r.find s with
      | some (0, n) => some (.ok (some (P.str (s.take n), s.drop n)))
      | _ => some (.ok none)
    | .core _ (.name _ nm _) => match (rulesOf L).find? (·.1 == nm) with
      | some x => vrun k d (.rule x.2.1 x.2.2) s
      | none => none
    | .core _ (.alt _ l) => vrun k d (.alts l) s
    | .alts [] => some (.ok none)
    | .alts (p :: l) => match vrun k d (.part false p) s with
      | some (.ok (some x)) => some (.ok (some x))
      | some (.error e) => some (.error e)
      | some (.ok none) => vrun k d (.alts l) s
      | none => none
    | .core _ (.seq _ l) => vrun k d (.items (formOf l) l []) s
    | .items f [] acc => match gather P f acc with
      | .ok v => some (.ok (some (v, s)))
      | .error _ => none
    | .items f (p :: l) acc => match vrun k d (.part true p) s with
      | some (.ok none) => some (.ok none)
      | some (.error e) => some (.error e)
      | some (.ok (some (v, s'))) => match gather P f (acc ++ [(p, v)]) with
        | .ok _ => vrun k d (.items f l (acc ++ [(p, v)])) s'
        | .error e => some (.error e)
      | none => none
    | .core h (.opt _ p) => match vrun k d (.part h p) s with
      | some (.ok (some x)) => some (.ok (some x))
      | some (.error e) => some (.error e)
      | some (.ok none) => some (.ok (some (P.undef, s)))
      | none => none
    | .core _ (.not _ p) => match vrun k d (.part false p) s with
      | some (.ok (some _)) => some (.ok none)
      | some (.error e) => some (.error e)
      | some (.ok none) => some (.ok (some (P.undef, s)))
      | none => none
    | .core _ (.look _ p) => match vrun k d (.part false p) s with
      | some (.ok (some (v, _))) => some (.ok (some (v, s)))
      | some (.error e) => some (.error e)
      | some (.ok none) => some (.ok none)
      | none => none
    | .core _ (.rep _ v sep mn mx) => match vrun k d (.part false v) s with
      | some (.ok (some (x, s'))) => vrun k d (.more v sep mn mx [x]) s'
      | some (.error e) => some (.error e)
      | some (.ok none) => some (vstop P mn [] s)
      | none => none
    | .sep none => some (.ok (some (P.undef, s)))
    | .sep (some p) => vrun k d (.part false p) s
    | .more v sep mn mx vs =>
      if roomB mx vs.length then
        match vrun k d (.sep sep) s with
        | some (.ok (some (_, s'))) => match vrun k d (.part false v) s' with
          | some (.ok (some (x, s''))) => vrun k d (.more v sep mn mx (vs ++ [x])) s''
          | some (.error e) => some (.error e)
          | some (.ok none) => some (vstop P mn vs s)
          | none => none
        | some (.error e) => some (.error e)
        | some (.ok none) => some (vstop P mn vs s)
        | none => none
      else some (vstop P mn vs s)
    | .rule cb (.text e) => match d with
      | d + 1 => match vrun k d (.part false e.vp) s with
        | some r => some (called P N cb r)
        | none => none
      | 0 => none
    | .rule cb (.rank ls) => match d with
      | d + 1 => match vrun k d (.lines ls) s with
        | some r => some (called P N cb r)
        | none => none
      | 0 => none
    | .lines [] => some (.ok none)
    | .lines (.incl _ _ _ :: ls) => vrun k d (.lines ls) s
    | .lines (.alt _ cb b :: ls) => match vrun k d (.rule cb b) s with
      | some (.ok (some x)) => some (.ok (some x))
      | some (.error e) => some (.error e)
      | some (.ok none) => vrun k d (.lines ls) s
      | none => none

variable {P N L}

theorem vrun_sound : ∀ (k d : Nat) (j : VJob V) (s : Bytes) (r : VRes V), vrun P N L k d j s = some r → Yields P N L d j s r
  | 0, _, _, _, _, h => by cases h
  | k + 1, d, .part a p, s, r, h => by
    simp only [vrun] at h
    split at h
    · rename_i h1; cases h; exact .part (vrun_sound k d _ s _ h1)
    · cases h
  | k + 1, d, .core a (.lit lab b), s, r, h => by
    simp only [vrun] at h
    have := after_spec b s
    split at h <;> rename_i h1 <;> rw [h1] at this <;> cases h
    · dsimp only at this; subst this; exact .lit
    · exact .litMiss this
  | k + 1, d, .core a (.re lab re), s, r, h => by
    simp only [vrun] at h
    split at h
    · rename_i hr; cases h; exact .re hr
    · rename_i hr; cases h; exact .reMiss fun n hn => hr n hn
  | k + 1, d, .core a (.name lab nm q), s, r, h => by
    simp only [vrun] at h
    split at h
    · rename_i y hy
      have h1 := List.mem_of_find?_eq_some hy
      have h2 := List.find?_some hy
      obtain ⟨x, c, b⟩ := y
      simp only [beq_iff_eq] at h2
      subst h2
      exact .name h1 (vrun_sound k d _ s r h)
    · cases h
  | k + 1, d, .core a (.alt lab l), s, r, h => .alt (vrun_sound k d _ s r h)
  | k + 1, d, .alts [], s, r, h => by cases h; exact .altsEnd
  | k + 1, d, .alts (p :: l), s, r, h => by
    simp only [vrun] at h
    split at h
    · rename_i h1; cases h; exact .altsDone (vrun_sound k d _ s _ h1) (by simp)
    · rename_i h1; cases h; exact .altsDone (vrun_sound k d _ s _ h1) (by simp)
    · rename_i h1; exact .altsMiss (vrun_sound k d _ s _ h1) (vrun_sound k d _ s _ h)
    · cases h
  | k + 1, d, .core a (.seq lab l), s, r, h => .seq (vrun_sound k d _ s r h)
  | k + 1, d, .items f [] acc, s, r, h => by
    simp only [vrun] at h
    split at h
    · rename_i h1; cases h; exact .itemsEnd h1
    · cases h
  | k + 1, d, .items f (p :: l) acc, s, r, h => by
    simp only [vrun] at h
    split at h
    · rename_i h1; cases h; exact .itemsMiss (vrun_sound k d _ s _ h1)
    · rename_i h1; cases h; exact .itemsPanic (vrun_sound k d _ s _ h1)
    · rename_i h1
      split at h
      · rename_i h2; exact .itemsPut (vrun_sound k d _ s _ h1) h2 (vrun_sound k d _ _ _ h)
      · rename_i h2; cases h; exact .itemsBad (vrun_sound k d _ s _ h1) h2
    · cases h
  | k + 1, d, .core a (.opt lab p), s, r, h => by
    simp only [vrun] at h
    split at h
    · rename_i h1; cases h; exact .optDone (vrun_sound k d _ s _ h1) (by simp)
    · rename_i h1; cases h; exact .optDone (vrun_sound k d _ s _ h1) (by simp)
    · rename_i h1; cases h; exact .optMiss (vrun_sound k d _ s _ h1)
    · cases h
  | k + 1, d, .core a (.not lab p), s, r, h => by
    simp only [vrun] at h
    split at h
    · rename_i h1; cases h; exact .notHit (vrun_sound k d _ s _ h1)
    · rename_i h1; cases h; exact .notPanic (vrun_sound k d _ s _ h1)
    · rename_i h1; cases h; exact .notMiss (vrun_sound k d _ s _ h1)
    · cases h
  | k + 1, d, .core a (.look lab p), s, r, h => by
    simp only [vrun] at h
    split at h
    · rename_i h1; cases h; exact .lookHit (vrun_sound k d _ s _ h1)
    · rename_i h1; cases h; exact .lookPanic (vrun_sound k d _ s _ h1)
    · rename_i h1; cases h; exact .lookMiss (vrun_sound k d _ s _ h1)
    · cases h
  | k + 1, d, .core a (.rep lab v sep mn mx), s, r, h => by
    simp only [vrun] at h
    split at h
    · rename_i h1; exact .rep (vrun_sound k d _ s _ h1) (vrun_sound k d _ _ _ h)
    · rename_i h1; cases h; exact .repPanic (vrun_sound k d _ s _ h1)
    · rename_i h1; cases h; exact .repMiss (vrun_sound k d _ s _ h1)
    · cases h
  | k + 1, d, .sep none, s, r, h => by cases h; exact .sepNone
  | k + 1, d, .sep (some p), s, r, h => .sepSome (vrun_sound k d _ s r h)
  | k + 1, d, .more v sep mn mx vs, s, r, h => by
    simp only [vrun] at h
    split at h
    · rename_i hr
      have hr := (roomB_spec mx vs.length).mp hr
      split at h
      · rename_i h1
        split at h
        · rename_i h2; exact .more hr (vrun_sound k d _ s _ h1) (vrun_sound k d _ _ _ h2) (vrun_sound k d _ _ _ h)
        · rename_i h2; cases h; exact .morePanic hr (vrun_sound k d _ s _ h1) (vrun_sound k d _ _ _ h2)
        · rename_i h2; cases h; exact .noMore hr (vrun_sound k d _ s _ h1) (vrun_sound k d _ _ _ h2)
        · cases h
      · rename_i h1; cases h; exact .sepPanic hr (vrun_sound k d _ s _ h1)
      · rename_i h1; cases h; exact .noSep hr (vrun_sound k d _ s _ h1)
      · cases h
    · rename_i hr
      cases h
      exact .full fun h' => hr ((roomB_spec mx vs.length).mpr h')
  | k + 1, d + 1, .rule cb (.text e), s, r, h => by
    simp only [vrun] at h
    split at h
    · rename_i h1; cases h; exact .text (vrun_sound k d _ s _ h1)
    · cases h
  | k + 1, d + 1, .rule cb (.rank ls), s, r, h => by
    simp only [vrun] at h
    split at h
    · rename_i h1; cases h; exact .rank (vrun_sound k d _ s _ h1)
    · cases h
  | k + 1, 0, .rule cb (.text e), s, r, h => by cases h
  | k + 1, 0, .rule cb (.rank ls), s, r, h => by cases h
  | k + 1, d, .lines [], s, r, h => by cases h; exact .linesEnd
  | k + 1, d, .lines (.incl _ _ _ :: ls), s, r, h => .incl (vrun_sound k d _ s r h)
  | k + 1, d, .lines (.alt _ cb b :: ls), s, r, h => by
    simp only [vrun] at h
    split at h
    · rename_i h1; cases h; exact .altDone (vrun_sound k d _ s _ h1) (by simp)
    · rename_i h1; cases h; exact .altDone (vrun_sound k d _ s _ h1) (by simp)
    · rename_i h1; exact .altMiss (vrun_sound k d _ s _ h1) (vrun_sound k d _ s _ h)
    · cases h

end Joeson.RuleText
