import Verif.Proofs.Spelled
/- Splitting concrete lines into tokens, for the examples. -/
namespace LB.Demo
open LB.Spec _root_.Spec

/-- Is it white space? -/
def blank (c : Char) : Bool := decide (c = ' ' ∨ c = '\t' ∨ c = '\r')

/-- The next character is allowed. -/
def clean (r : CStr) : Bool := r.head?.all (fun c => decide (Plain c))

/-- The dollar sign with which a text starts. -/
def dollar (y : CStr) : CStr := if y.head? = some '$' then ['$'] else []

/-- The tokens of a line without fractions and exponents, up to the end or REM, and what is left. -/
def split : Nat → CStr → Option (List Lexeme × CStr)
  | 0, _ => none
  | n + 1, s =>
    let r := s.dropWhile blank
    match r with
    | [] => some ([opTok '\n'], [])
    | c :: t =>
      if IsDigit c then
        let w := c :: t.takeWhile (fun c => decide (IsDigit c))
        let r' := t.dropWhile (fun c => decide (IsDigit c))
        if w.length ≤ 127 ∧ clean r' = true ∧ r'.head?.all (fun c => !decide (IsDigit c) && c != '.' && c != 'e' && c != 'E') = true then
          (split n r').map (fun p => (.num (Dbl.rnd (decimal (w ++ []) * power 10 (0 - ([] : CStr).length))) :: p.1, p.2))
        else none
      else if c.isAlpha then
        let x := t.takeWhile Char.isAlphanum
        let y := t.dropWhile Char.isAlphanum
        let d := dollar y
        let r' := y.drop d.length
        let w := c :: x ++ d
        if w.length ≤ 126 ∧ clean r' = true then
          match reservedWords.find? (fun v => decide (SameIgnoringCase v.1.toList w)) with
          | some v => if v.2 = .REM then some ([.op (.kw .REM)], r') else (split n r').map (fun p => (.op (.kw v.2) :: p.1, p.2))
          | none => (split n r').map (fun p => (.name w :: p.1, p.2))
        else none
      else if c = '"' then
        let v := t.takeWhile (· != '"')
        let r' := t.dropWhile (· != '"')
        match r' with
        | [] => none
        | _ :: r' => if v.length ≤ 127 ∧ v.all (fun c => decide (Plain c)) = true then (split n r').map (fun p => (.str v :: p.1, p.2)) else none
      else if c = '<' then
        if t.head? = some '>' then (split n (t.drop 1)).map (fun p => (.op .ne :: p.1, p.2))
        else if t.head? = some '=' then (split n (t.drop 1)).map (fun p => (.op .le :: p.1, p.2))
        else if clean t = true then (split n t).map (fun p => (opTok '<' :: p.1, p.2)) else none
      else if c = '>' then
        if t.head? = some '=' then (split n (t.drop 1)).map (fun p => (.op .ge :: p.1, p.2))
        else if clean t = true then (split n t).map (fun p => (opTok '>' :: p.1, p.2)) else none
      else if c ∈ "()^*/+-=:;,?".toList then (split n t).map (fun p => (opTok c :: p.1, p.2))
      else none

theorem clean_spec {r : CStr} (h : clean r = true) : Clean r := by
  intro c hc
  simpa [clean, hc] using h

theorem head_drop {t : CStr} {c : Char} (h : t.head? = some c) : t = c :: t.drop 1 := by
  cases t with
  | nil => cases h
  | cons d t => cases h; rfl

theorem mem_takeWhile {α : Type} {p : α → Bool} {l : List α} {a : α} (h : a ∈ l.takeWhile p) : p a = true := by
  induction l with
  | nil => cases h
  | cons b l ih =>
    rw [List.takeWhile_cons] at h
    split at h
    · rcases List.mem_cons.1 h with rfl | h
      · assumption
      · exact ih h
    · cases h

theorem head_dropWhile {α : Type} {p : α → Bool} {l : List α} {a : α} (h : (l.dropWhile p).head? = some a) : p a = false := by
  induction l with
  | nil => cases h
  | cons b l ih =>
    rw [List.dropWhile_cons] at h
    split at h
    · exact ih h
    · rename_i hn; cases h; simpa using hn

theorem split_spec : ∀ (n : Nat) {s : CStr} {l : List Lexeme} {r : CStr}, split n s = some (l, r) → Spells s l r := by
  intro n
  induction n with
  | zero => intro s l r h; cases h
  | succ n ih =>
    intro s l r h
    have hb : Space (s.takeWhile blank) := by
      intro c hc
      have := mem_takeWhile hc
      simpa [blank] using this
    have hs : s = s.takeWhile blank ++ s.dropWhile blank := List.takeWhile_append_dropWhile.symm
    have go : ∀ {a : Lexeme} {r' : CStr}, (split n r').map (fun p => (a :: p.1, p.2)) = some (l, r) → ∃ l', l = a :: l' ∧ Spells r' l' r := by
      intro a r' h
      obtain ⟨p, h1, h2⟩ := Option.map_eq_some_iff.1 h
      cases h2
      exact ⟨p.1, rfl, ih h1⟩
    rw [split] at h
    simp only at h
    split at h
    · rename_i hnil
      cases h
      rw [hs, hnil, List.append_nil]
      exact .eol hb
    · rename_i c t hr
      rw [hs, hr]
      split at h
      · rename_i hd
        split at h
        · rename_i hc
          obtain ⟨l', rfl, hl⟩ := go h
          have := SpellsAs.num (b := s.takeWhile blank) (w := c :: t.takeWhile (fun c => decide (IsDigit c))) (r := t.dropWhile (fun c => decide (IsDigit c))) hb
            (x := Dbl.rnd (decimal (c :: t.takeWhile (fun c => decide (IsDigit c)) ++ []) * power 10 (0 - ([] : CStr).length)))
            ⟨c :: t.takeWhile (fun c => decide (IsDigit c)), c :: t.takeWhile (fun c => decide (IsDigit c)), [], [], 0, by simp, ?_, .inl ⟨rfl, rfl⟩, by simp, Dbl.rnd_rounded _⟩ hc.1
            ⟨clean_spec hc.2.1, ?_⟩ hl
          · rw [List.append_assoc, List.cons_append, List.takeWhile_append_dropWhile] at this
            exact this
          · refine ⟨?_, by simp, .inl ⟨rfl, rfl⟩⟩
            intro d hd'
            simp only [List.append_nil] at hd'
            rcases List.mem_cons.1 hd' with rfl | hd'
            · exact hd
            · simpa using mem_takeWhile hd'
          · intro d hd'
            have := hc.2.2
            rw [hd'] at this
            simp only [Option.all_some, Bool.and_eq_true, Bool.not_eq_true', decide_eq_false_iff_not, bne_iff_ne] at this
            exact ⟨this.1.1.1, this.1.1.2, this.1.2, this.2⟩
        · cases h
      · split at h
        · rename_i ha
          split at h
          · rename_i hc
            have hy : t.dropWhile Char.isAlphanum = dollar (t.dropWhile Char.isAlphanum) ++
                (t.dropWhile Char.isAlphanum).drop (dollar (t.dropWhile Char.isAlphanum)).length := by
              unfold dollar
              split
              · rename_i h; exact head_drop h
              · rfl
            have hends : NameEnds (c :: t.takeWhile Char.isAlphanum ++ dollar (t.dropWhile Char.isAlphanum))
                ((t.dropWhile Char.isAlphanum).drop (dollar (t.dropWhile Char.isAlphanum)).length) := by
              refine ⟨clean_spec hc.2, ?_⟩
              unfold dollar
              split
              · left; rw [List.getLast?_append]; rfl
              · rename_i hn
                right
                intro d hd
                rw [show ([] : CStr).length = 0 from rfl, List.drop_zero] at hd
                refine ⟨head_dropWhile hd, fun he => hn (he ▸ hd)⟩
            have hname : Name (c :: t.takeWhile Char.isAlphanum ++ dollar (t.dropWhile Char.isAlphanum)) :=
              ⟨c, _, _, rfl, ha, fun e he => mem_takeWhile he, by unfold dollar; split <;> simp⟩
            have ht : c :: t = (c :: t.takeWhile Char.isAlphanum ++ dollar (t.dropWhile Char.isAlphanum)) ++
                (t.dropWhile Char.isAlphanum).drop (dollar (t.dropWhile Char.isAlphanum)).length := by
              rw [List.append_assoc, ← hy, List.cons_append, List.takeWhile_append_dropWhile]
            rw [ht, ← List.append_assoc]
            generalize c :: t.takeWhile Char.isAlphanum ++ dollar (t.dropWhile Char.isAlphanum) = w at *
            generalize (t.dropWhile Char.isAlphanum).drop (dollar (t.dropWhile Char.isAlphanum)).length = r' at *
            split at h
            · rename_i v hv
              have hm := List.mem_of_find?_eq_some hv
              have hsame : SameIgnoringCase v.1.toList w := by simpa using List.find?_some hv
              split at h
              · rename_i hrem
                cases h
                exact .keyword hb hname (.inl hends) (v := v.1) (k := .REM) (hrem ▸ hm) hsame .done
              · obtain ⟨l', rfl, hl⟩ := go h
                exact .keyword hb hname (.inl hends) (v := v.1) hm hsame hl
            · rename_i hv
              obtain ⟨l', rfl, hl⟩ := go h
              refine .name hb hname hc.1 (.inl hends) (fun g => by cases g) (fun v k hm => ?_) hl
              have := List.find?_eq_none.1 hv (v, k) hm
              simpa using this
          · cases h
        · split at h
          · rename_i hq
            subst hq
            split at h
            · cases h
            · rename_i q r' hr'
              have hq : q = '"' := by
                have := head_dropWhile (p := (· != '"')) (l := t) (a := q) (by rw [hr']; rfl)
                simpa using this
              subst hq
              split at h
              · rename_i hc
                obtain ⟨l', rfl, hl⟩ := go h
                have ht : t = t.takeWhile (· != '"') ++ '"' :: r' := by rw [← hr', List.takeWhile_append_dropWhile]
                rw [ht]
                rw [← ht]
                refine (show Spells _ _ _ from ?_)
                conv => arg 1; rw [ht]
                refine .str hb ⟨fun c hc' => ?_, fun hm => ?_⟩ hc.1 hl
                · simpa using List.all_eq_true.1 hc.2 c hc'
                · simpa using mem_takeWhile hm
              · cases h
          · split at h
            · rename_i hlt
              subst hlt
              split at h
              · rename_i hh
                obtain ⟨l', rfl, hl⟩ := go h
                rw [head_drop hh]
                exact .ne hb hl
              · rename_i hne
                split at h
                · rename_i hh
                  obtain ⟨l', rfl, hl⟩ := go h
                  rw [head_drop hh]
                  exact .le hb hl
                · rename_i hle
                  split at h
                  · rename_i hc
                    obtain ⟨l', rfl, hl⟩ := go h
                    exact .less hb (clean_spec hc) hne hle hl
                  · cases h
            · split at h
              · rename_i hgt
                subst hgt
                split at h
                · rename_i hh
                  obtain ⟨l', rfl, hl⟩ := go h
                  rw [head_drop hh]
                  exact .ge hb hl
                · rename_i hge
                  split at h
                  · rename_i hc
                    obtain ⟨l', rfl, hl⟩ := go h
                    exact .greater hb (clean_spec hc) hge hl
                  · cases h
              · split at h
                · rename_i hc
                  obtain ⟨l', rfl, hl⟩ := go h
                  exact .sign hb hc hl
                · cases h

end LB.Demo
