import Verif.Model.Token
import Verif.Proofs.Basics
/- Lemmas about Basic/token.c. -/
namespace LB

theorem hashpjwUpper_ci (a b : CStr) (h : Spec.SameIgnoringCase a b) : hashpjwUpper a = hashpjwUpper b := by
  have key : ∀ (s : CStr) (v : Nat), s.foldl (fun h c => hashIn h (toupper c).toNat) v
      = (s.map Char.toUpper).foldl (fun h c => hashIn h c.toNat) v := by
    intro s
    induction s with
    | nil => intro v; rfl
    | cons c cs ih => intro v; simp only [List.foldl_cons, List.map_cons, ih, toUpper_eq]
  unfold hashpjwUpper
  rw [key, key, h]

theorem foldl_kwInsert (ks : List Keyword) (t : KwTable) (i : Nat) :
    ks.foldl kwInsert t i
      = (ks.filter (fun k => hashpjwUpper k.name % keywordHashSize == i)).reverse ++ t i := by
  induction ks generalizing t with
  | nil => simp
  | cons k ks ih =>
    simp only [List.foldl_cons, ih]
    by_cases h : hashpjwUpper k.name % keywordHashSize = i
    · simp [kwInsert, h]
    · simp [kwInsert, h, Ne.symm h]

theorem keywords_distinct :
    ∀ a ∈ keywords, ∀ b ∈ keywords, Spec.SameIgnoringCase a.name b.name → a = b := by
  decide

theorem identifierToken_kw_iff (s : CStr) (k : Kw) :
    identifierToken s = .kw k ↔ ∃ w ∈ keywords, w.token = k ∧ Spec.SameIgnoringCase w.name s := by
  unfold identifierToken identifierTokenIn initKeywords
  simp only
  rw [foldl_kwInsert]
  constructor
  · intro h
    split at h
    · next w hw =>
      have h1 := List.find?_some hw
      have h2 := List.mem_of_find?_eq_some hw
      simp only [beq_iff_eq] at h1
      rw [strcasecmp_eq_zero_iff] at h1
      simp only [List.append_nil, List.mem_reverse, List.mem_filter] at h2
      simp only [Tok.kw.injEq] at h
      exact ⟨w, h2.1, h, h1⟩
    · simp at h
  · rintro ⟨w, hw, rfl, hs⟩
    split
    · next w' hw' =>
      have h1 := List.find?_some hw'
      have h2 := List.mem_of_find?_eq_some hw'
      simp only [beq_iff_eq] at h1
      rw [strcasecmp_eq_zero_iff] at h1
      simp only [List.append_nil, List.mem_reverse, List.mem_filter] at h2
      have : w' = w := keywords_distinct w' h2.1 w hw (h1.trans hs.symm)
      rw [this]
    · next hn =>
      exfalso
      rw [List.find?_eq_none] at hn
      apply hn w
      · simp only [List.append_nil, List.mem_reverse, List.mem_filter, beq_iff_eq]
        exact ⟨hw, by rw [hashpjwUpper_ci _ _ hs]⟩
      · rw [beq_iff_eq, strcasecmp_eq_zero_iff]; exact hs

theorem identifierToken_cases (s : CStr) : identifierToken s = .id ∨ ∃ k, identifierToken s = .kw k := by
  unfold identifierToken identifierTokenIn
  simp only
  split
  · exact Or.inr ⟨_, rfl⟩
  · exact Or.inl rfl

theorem keywords_len : ∀ k ∈ keywords, k.len = k.name.length := by decide

theorem keywords_no_prefix :
    ∀ a ∈ keywords, ∀ b ∈ keywords, Spec.SameIgnoringCase a.name (b.name.take a.name.length) → a = b := by
  decide

theorem sic_take (a b : List Char) (n : Nat) (h : Spec.SameIgnoringCase a b) :
    Spec.SameIgnoringCase (a.take n) (b.take n) := by
  unfold Spec.SameIgnoringCase at *
  rw [List.map_take, List.map_take, h]

theorem sic_length (a b : List Char) (h : Spec.SameIgnoringCase a b) : a.length = b.length := by
  have := congrArg List.length h
  simpa using this

/-- At most one keyword is a prefix of any text. -/
theorem prefix_unique (s : CStr) (a b : Keyword) (ha : a ∈ keywords) (hb : b ∈ keywords)
    (h1 : Spec.SameIgnoringCase a.name (s.take a.name.length))
    (h2 : Spec.SameIgnoringCase b.name (s.take b.name.length)) : a = b := by
  rcases Nat.le_total a.name.length b.name.length with h | h
  · apply keywords_no_prefix a ha b hb
    have := sic_take _ _ a.name.length h2
    rw [List.take_take, Nat.min_eq_left h] at this
    exact h1.trans this.symm
  · symm
    apply keywords_no_prefix b hb a ha
    have := sic_take _ _ b.name.length h1
    rw [List.take_take, Nat.min_eq_left h] at this
    exact h2.trans this.symm

theorem keywordPrefix_some_iff (s : CStr) (k : Keyword) :
    keywordPrefix s = some k ↔ k ∈ keywords ∧ Spec.SameIgnoringCase k.name (s.take k.name.length) := by
  unfold keywordPrefix keywordPrefixIn
  have conv : ∀ w ∈ keywords, ((strncasecmp w.name s w.len == 0) = true ↔
      Spec.SameIgnoringCase w.name (s.take w.name.length)) := by
    intro w hw
    rw [beq_iff_eq, strncasecmp_eq_zero_iff, keywords_len w hw, List.take_length]
  constructor
  · intro h
    have h2 := List.mem_of_find?_eq_some h
    have h3 := List.find?_some h
    exact ⟨h2, (conv k h2).mp h3⟩
  · rintro ⟨hk, hs⟩
    cases hf : keywords.find? (fun w => strncasecmp w.name s w.len == 0) with
    | none =>
      rw [List.find?_eq_none] at hf
      exact absurd ((conv k hk).mpr hs) (hf k hk)
    | some w =>
      have h2 := List.mem_of_find?_eq_some hf
      have h3 := (conv w h2).mp (by simpa using List.find?_some hf)
      rw [prefix_unique s w k h2 hk h3 hs]

end LB
