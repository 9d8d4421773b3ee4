import Verif.Proofs.Load
/- C01, C02, C03, C45: the stored program. -/
namespace LB
open Spec

/-- A one-line abstract program used in the examples. -/
private def demo : Source := { name := none, lines := [⟨10, "PRINT".toList⟩, ⟨30, "END".toList⟩] }

/-- C01.  Entering a line changes exactly that line of the program; order is kept.
The hypothesis on 0 is what the program needs: number 0 cannot be appended (it exits). -/
theorem C01_enter_line (src : Source) (p : Prog) (num : Nat) (text : List Char)
    (hs : Shows src.pairs p) (h0 : num = 0 → src.lines ≠ []) :
    ∃ src', enterSourceLine src num text = .ok src' ∧ src'.name = src.name ∧
      Shows src'.pairs (applyEdit p (.enter num text)) :=
  enter_shows src p num text hs h0

/-- C01.  Line number 0 in an empty program ends the process. -/
theorem C01_enter_zero_empty (src : Source) (text : List Char) (h : src.lines = []) :
    enterSourceLine src 0 text = .halt (.exit "invalid line number") := by
  simp [enterSourceLine, h, enterLoop, appendLine]

/-- C01.  A line number is found exactly when the program has it, and deleting the line found
removes exactly that line. -/
theorem C01_delete_line (src : Source) (p : Prog) (num : Nat) (hs : Shows src.pairs p) :
    (findSourceLinenum src num = none ∧ p num = none) ∨
    (∃ i, findSourceLinenum src num = some i ∧ p num ≠ none ∧
      Shows (deleteSourceLine src i).pairs (applyEdit p (.erase num))) := by
  cases hf : findSourceLinenum src num with
  | none => exact Or.inl ⟨rfl, (find_shows src p num hs).mp hf⟩
  | some i =>
    refine Or.inr ⟨i, rfl, ?_, delete_shows src p num i hs hf⟩
    intro h
    rw [(find_shows src p num hs).mpr h] at hf
    exact absurd hf (by simp)

example : Shows demo.pairs (fun n => if n = 10 then some "PRINT".toList else if n = 30 then some "END".toList else none) := by
  refine ⟨by decide, ?_⟩
  intro n t
  simp only [demo, Source.pairs, SrcLine.pair, List.map_cons, List.map_nil, List.mem_cons, Prod.mk.injEq,
    List.not_mem_nil, or_false]
  by_cases h1 : n = 10
  · subst h1; simp [eq_comm]
  · by_cases h2 : n = 30
    · subst h2; simp [eq_comm]
    · simp [h1, h2]

example : enterSourceLine demo 20 "GOTO 10".toList
    = .ok { name := none, lines := [⟨10, "PRINT".toList⟩, ⟨20, "GOTO 10".toList⟩, ⟨30, "END".toList⟩] } := by decide

/-- C02.  Saving a program and loading the file gives the program back, line for line.
The conditions on each line are those under which the written line fits the reader's buffer. -/
theorem C02_save_load (src : Source) (name : List Char)
    (hasc : Ascending (src.pairs.map (·.1)))
    (hl : ∀ n t, (n, t) ∈ src.pairs → 1 ≤ n ∧ n < 2 ^ 32 ∧ '\n' ∉ t ∧ '\x00' ∉ t ∧
      (numeral n).length + 1 + t.length + 1 ≤ 255) :
    loadSourceFile name (some (saveSourceFile src)) = .ok (some { name := some name, lines := src.lines }) := by
  have key : loadLoop ((saveSourceFile src).length + 1) [] (saveSourceFile src) = .ok src.lines := by
    rw [loadLoop_ok _ _ _ (Nat.lt_succ_self _)]
    have hmem : ∀ l ∈ src.lines, (l.num, l.text) ∈ src.pairs := fun l hl => (mem_pairs src _ _).mpr hl
    refine ⟨src.lines, by simp, save_listing src.lines ?_, ?_, ?_⟩
    · intro l hl'
      obtain ⟨h1, h2, h3, h4, h5⟩ := hl _ _ (hmem l hl')
      refine ⟨h2, h3, h4, ?_⟩
      simp only [saveLine, List.length_append, List.length_cons, List.length_nil]
      have : (fmtU l.num).length = (numeral l.num).length := rfl
      omega
    · rw [ascending_nums] at hasc
      refine List.pairwise_cons.mpr ⟨?_, hasc⟩
      intro a ha
      obtain ⟨l, hl', rfl⟩ := List.mem_map.mp ha
      have := (hl _ _ (hmem l hl')).1
      simp [lastNum]; omega
    · intro l hl'
      have := (hl _ _ (hmem l hl')).1
      omega
  simp [loadSourceFile, key]

example : Ascending (demo.pairs.map (·.1)) ∧ ∀ n t, (n, t) ∈ demo.pairs → 1 ≤ n ∧ n < 2 ^ 32 ∧ '\n' ∉ t ∧
    '\x00' ∉ t ∧ (numeral n).length + 1 + t.length + 1 ≤ 255 := by
  refine ⟨by decide, ?_⟩
  have : ∀ p ∈ demo.pairs, 1 ≤ p.1 ∧ p.1 < 2 ^ 32 ∧ '\n' ∉ p.2 ∧
    '\x00' ∉ p.2 ∧ (numeral p.1).length + 1 + p.2.length + 1 ≤ 255 := by decide
  intro n t h; exact this (n, t) h

/-- C02.  The length condition is needed: a program whose saved form has a longer line is saved
to a file that cannot be loaded. -/
theorem C02_long_line_not_reloadable (src : Source) (name : List Char) (n : Nat) (t : List Char)
    (hm : src.lines = [⟨n, t⟩]) (ht : '\n' ∉ t) (hlen : (numeral n).length + 1 + t.length + 1 > 255) :
    ∃ m, loadSourceFile name (some (saveSourceFile src)) = .halt (.exit m) := by
  rcases loadLoop_cases ((saveSourceFile src).length + 1) [] (saveSourceFile src) (Nat.lt_succ_self _) with
    ⟨ls, h⟩ | ⟨m, h⟩
  · exfalso
    have hsave : saveSourceFile src = (numeral n ++ ' ' :: t) ++ '\n' :: [] := by
      simp [saveSourceFile, hm, saveLine, fmtU, numeral]
    rw [loadLoop_ok _ _ _ (Nat.lt_succ_self _)] at h
    obtain ⟨tail, -, hl, -⟩ := h
    rw [hsave] at hl
    generalize hc : (numeral n ++ ' ' :: t) ++ '\n' :: [] = c0 at hl
    generalize tail.map SrcLine.pair = tp at hl
    cases hl with
    | nil => simp at hc
    | @cons l n' t' c ps hw hl' =>
      obtain ⟨ds, sep, _, _, _, _, _, hnl, hnul, hlen'⟩ := hw
      have h3 : '\n' ∉ numeral n ++ ' ' :: t := by
        simp only [List.mem_append, List.mem_cons, not_or]
        exact ⟨fun h => absurd (fmtU_digits n _ h) (by decide), by decide, ht⟩
      have e1 : ((numeral n ++ ' ' :: t) ++ '\n' :: []).takeWhile (fun c => decide (c ≠ '\n')) = numeral n ++ ' ' :: t := by
        rw [List.takeWhile_append_of_pos (by intro a ha; simp; rintro rfl; exact h3 ha)]; simp
      have e2 : (l ++ '\n' :: c).takeWhile (fun c => decide (c ≠ '\n')) = l := by
        rw [List.takeWhile_append_of_pos (by intro a ha; simp; rintro rfl; exact hnl ha)]; simp
      have : numeral n ++ ' ' :: t = l := by rw [← e1, hc, e2]
      rw [← this] at hlen'
      simp only [List.length_append, List.length_cons] at hlen'
      omega
  · exact ⟨m, by simp [loadSourceFile, h]⟩

example : (numeral 10).length + 1 + (List.replicate 252 'A').length + 1 > 255 := by
  simp only [List.length_replicate]; decide

/-- C03.  LOAD succeeds exactly on files of well-formed lines with strictly ascending positive
numbers, and then stores exactly those lines. -/
theorem C03_load_iff (name contents : List Char) (src : Source) :
    loadSourceFile name (some contents) = .ok (some src) ↔
      src.name = some name ∧ Listing contents src.pairs ∧
      Ascending (src.pairs.map (·.1)) ∧ ∀ n t, (n, t) ∈ src.pairs → n ≠ 0 := by
  have hiff := loadLoop_ok (contents.length + 1) [] contents (Nat.lt_succ_self _) src.lines
  rw [ascending_nums]
  constructor
  · intro h
    unfold loadSourceFile at h
    split at h
    · next h' => simp at h'
    · next c hc =>
      simp only [Option.some.injEq] at hc; subst hc
      split at h
      · simp at h
      · next ls hls =>
        simp only [Outcome.ok.injEq, Option.some.injEq] at h
        subst h
        obtain ⟨tail, h1, h2, h3, h4⟩ := hiff.mp hls
        simp only [List.nil_append] at h1
        subst h1
        exact ⟨rfl, h2, (List.pairwise_cons.mp h3).2, fun n t hm => h4 ⟨n, t⟩ ((mem_pairs _ n t).mp hm)⟩
  · rintro ⟨h1, h2, h3, h4⟩
    have h0 : ∀ l ∈ src.lines, l.num ≠ 0 := fun l hl => h4 l.num l.text ((mem_pairs _ _ _).mpr hl)
    have := hiff.mpr ⟨src.lines, by simp, h2, List.pairwise_cons.mpr ⟨by
      intro a ha
      obtain ⟨l, hl, rfl⟩ := List.mem_map.mp ha
      have := h0 l hl
      simp [lastNum]; omega, h3⟩, h0⟩
    simp [loadSourceFile, this, ← h1]

/-- C03.  On any other file contents LOAD ends the process with a message; it never
misbehaves otherwise. -/
theorem C03_load_total (name contents : List Char) :
    (∃ src, loadSourceFile name (some contents) = .ok (some src)) ∨
    (∃ m, loadSourceFile name (some contents) = .halt (.exit m)) := by
  rcases loadLoop_cases (contents.length + 1) [] contents (Nat.lt_succ_self _) with ⟨ls, h⟩ | ⟨m, h⟩
  · exact Or.inl ⟨{ name := some name, lines := ls }, by simp [loadSourceFile, h]⟩
  · exact Or.inr ⟨m, by simp [loadSourceFile, h]⟩

example : loadSourceFile "f".toList (some "10 PRINT\n20END\n".toList)
    = .ok (some { name := some "f".toList, lines := [⟨10, "PRINT".toList⟩, ⟨20, "END".toList⟩] }) := by decide
example : loadSourceFile "f".toList (some "10 PRINT\n10 END\n".toList)
    = .halt (.exit "line number is not in increasing order") := by decide

/-- C45.  A replacement happens exactly when the old text stands at that place, and then changes
only that span of that line. -/
theorem C45_replace (src : Source) (line pos : Nat) (from_ to : List Char) (src' : Source) :
    sourceReplace src line pos from_ to = some src' ↔
      ∃ n pre post, src.lines[line]? = some ⟨n, pre ++ from_ ++ post⟩ ∧ pre.length = pos ∧
        src'.name = src.name ∧ src'.lines.length = src.lines.length ∧
        src'.lines[line]? = some ⟨n, pre ++ to ++ post⟩ ∧
        ∀ i, i ≠ line → src'.lines[i]? = src.lines[i]? := by
  unfold sourceReplace
  constructor
  · intro h
    split at h
    · simp at h
    · next sl hsl =>
      simp only at h
      split at h
      · next hc =>
        obtain ⟨h1, h2, h3⟩ := hc
        simp only [Option.some.injEq] at h
        subst h
        have hlt : line < src.lines.length := (List.getElem?_eq_some_iff.mp hsl).1
        refine ⟨sl.num, sl.text.take pos, sl.text.drop (pos + from_.length), ?_, ?_, rfl, ?_, ?_, ?_⟩
        · rw [hsl]
          congr 1
          have : sl.text = sl.text.take pos ++ from_ ++ sl.text.drop (pos + from_.length) := by
            rw [← List.drop_drop]
            conv => lhs; rw [← List.take_append_drop pos sl.text]
            rw [List.append_assoc]
            congr 1
            conv => lhs; rw [← List.take_append_drop from_.length (sl.text.drop pos)]
            rw [h3]
          rw [← this]
        · simp; omega
        · simp
        · simp [hlt]
        · intro i hi; simp [Ne.symm hi]
      · simp at h
  · rintro ⟨n, pre, post, h1, h2, h3, h4, h5, h6⟩
    rw [h1]
    simp only
    have hlt : line < src.lines.length := (List.getElem?_eq_some_iff.mp h1).1
    rw [if_pos ⟨by simp; omega, by simp; omega, by subst h2; simp⟩]
    congr 1
    have e1 : (pre ++ from_ ++ post).take pos = pre := by subst h2; simp
    have e2 : (pre ++ from_ ++ post).drop (pos + from_.length) = post := by
      subst h2; rw [List.append_assoc, ← List.drop_drop]; simp
    rw [e1, e2]
    cases src' with
    | mk nm ls =>
      simp only at h3 h4 h5 h6
      congr 1
      · exact h3.symm
      · apply List.ext_getElem?
        intro i
        by_cases hi : i = line
        · subst hi; rw [h5]; simp [hlt]
        · rw [h6 i hi]; simp [Ne.symm hi]

example : sourceReplace { name := none, lines := [⟨10, "GOTO 20".toList⟩] } 0 5 "20".toList "300".toList
    = some { name := none, lines := [⟨10, "GOTO 300".toList⟩] } := by decide

end LB
