import Verif.Proofs.Token
/- C07, C08: recognition of keywords. -/
namespace LB
open Spec

/-- The reserved words and what they denote, written out independently of the lookup tables. -/
def reservedWords : List (String × Kw) := [
  ("AND", .AND), ("CLEAR", .CLEAR), ("CLS", .CLS), ("DATA", .DATA), ("DEF", .DEF), ("DIM", .DIM),
  ("ELSE", .ELSE), ("END", .END), ("FOR", .FOR), ("GOSUB", .GOSUB), ("GOTO", .GOTO), ("IF", .IF),
  ("INPUT", .INPUT), ("LET", .LET), ("LINE", .LINE), ("NEXT", .NEXT), ("NOT", .NOT), ("ON", .ON),
  ("OR", .OR), ("PRINT", .PRINT), ("RANDOMIZE", .RANDOMIZE), ("READ", .READ), ("REM", .REM),
  ("RESTORE", .RESTORE), ("RETURN", .RETURN), ("STEP", .STEP), ("STOP", .STOP), ("THEN", .THEN), ("TO", .TO)]

theorem reserved_iff (P : List Char → Prop) (k : Kw) :
    (∃ w ∈ keywords, w.token = k ∧ P w.name) ↔ ∃ w, (w, k) ∈ reservedWords ∧ P w.toList := by
  have h : keywords = reservedWords.map (fun w => ⟨w.1.toList, w.1.toList.length, w.2⟩) := by decide
  rw [h]
  simp only [List.mem_map]
  constructor
  · rintro ⟨_, ⟨⟨w, k'⟩, hw, rfl⟩, rfl, hp⟩; exact ⟨w, hw, hp⟩
  · rintro ⟨w, hw, hp⟩; exact ⟨_, ⟨(w, k), hw, rfl⟩, rfl, hp⟩

/-- C07.  A word denotes a keyword exactly when it is spelt like it up to letter case;
this holds through the hash table for every word. -/
theorem C07_keyword_iff (s : List Char) (k : Kw) :
    identifierToken s = .kw k ↔ ∃ w, (w, k) ∈ reservedWords ∧ SameIgnoringCase w.toList s := by
  rw [identifierToken_kw_iff, reserved_iff (fun n => SameIgnoringCase n s)]

/-- C07.  Every other word is a name. -/
theorem C07_otherwise_name (s : List Char) :
    identifierToken s = .id ↔ ∀ w k, (w, k) ∈ reservedWords → ¬ SameIgnoringCase w.toList s := by
  constructor
  · intro h w k hw hs
    rw [(C07_keyword_iff s k).mpr ⟨w, hw, hs⟩] at h
    simp at h
  · intro h
    rcases identifierToken_cases s with h' | ⟨k, h'⟩
    · exact h'
    · obtain ⟨w, hw, hs⟩ := (C07_keyword_iff s k).mp h'
      exact absurd hs (h w k hw)

example : identifierToken "gOsUb".toList = .kw .GOSUB ∧ identifierToken "GOSUBX".toList = .id := by decide

/-- C08.  When keywords are recognised as prefixes, the keyword found is the one the text begins
with, and no text begins with two different keywords. -/
theorem C08_prefix_iff (s : List Char) (k : Kw) :
    (∃ w, keywordPrefix s = some w ∧ w.token = k) ↔
      ∃ w, (w, k) ∈ reservedWords ∧ SameIgnoringCase w.toList (s.take w.toList.length) := by
  rw [← reserved_iff (fun n => SameIgnoringCase n (s.take n.length))]
  constructor
  · rintro ⟨w, hw, hk⟩
    obtain ⟨h1, h2⟩ := (keywordPrefix_some_iff s w).mp hw
    exact ⟨w, h1, hk, h2⟩
  · rintro ⟨w, h1, hk, h2⟩
    exact ⟨w, (keywordPrefix_some_iff s w).mpr ⟨h1, h2⟩, hk⟩

/-- C08.  The length skipped is the length of the keyword. -/
theorem C08_prefix_length (s : List Char) (w : Keyword) (h : keywordPrefix s = some w) :
    w.len = w.name.length ∧ w.len ≤ s.length := by
  obtain ⟨h1, h2⟩ := (keywordPrefix_some_iff s w).mp h
  have e := keywords_len w h1
  refine ⟨e, ?_⟩
  have := sic_length _ _ h2
  simp only [List.length_take] at this
  omega

/-- C08.  At most one keyword begins a given text. -/
theorem C08_prefix_unique (s : List Char) (v w : String) (j k : Kw)
    (hv : (v, j) ∈ reservedWords) (hw : (w, k) ∈ reservedWords)
    (h1 : SameIgnoringCase v.toList (s.take v.toList.length))
    (h2 : SameIgnoringCase w.toList (s.take w.toList.length)) : v = w ∧ j = k := by
  obtain ⟨a, ha, hja⟩ := (C08_prefix_iff s j).mpr ⟨v, hv, h1⟩
  obtain ⟨b, hb, hkb⟩ := (C08_prefix_iff s k).mpr ⟨w, hw, h2⟩
  rw [ha] at hb
  simp only [Option.some.injEq] at hb
  subst hb
  have hjk : j = k := hja.symm.trans hkb
  subst hjk
  have inj : ∀ p ∈ reservedWords, ∀ q ∈ reservedWords, p.2 = q.2 → p.1 = q.1 := by decide
  exact ⟨inj _ hv _ hw rfl, rfl⟩

example : ("FOR", Kw.FOR) ∈ reservedWords ∧ SameIgnoringCase "FOR".toList ("fori=1to9".toList.take "FOR".toList.length) ∧
    keywordPrefix "fori=1to9".toList = some ⟨"FOR".toList, 3, .FOR⟩ := by decide

end LB
