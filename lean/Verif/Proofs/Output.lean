import Verif.Spec.Output
import Mathlib.Data.List.Infix

/-!
# Output files: helper lemmas
-/

set_option autoImplicit false

namespace Verif

theorem Dir.set_self (d : Dir) (n : FileName) (x : List UInt8) : d.set n x n = some x := by simp [Dir.set]
theorem Dir.set_other (d : Dir) {n m : FileName} (x : List UInt8) (h : m ≠ n) : d.set n x m = d m := by simp [Dir.set, h]

/-- what is known of a buffered file into which `all` was written -/
structure BufInv (cap room : Nat) (all : List UInt8) (f : BufFile) : Prop where
  begun : f.written ++ f.buf = all
  small : f.buf.length ≤ cap
  left : f.written.length + f.room = room

/-- what is known if a write has failed -/
structure BufFailed (room : Nat) (all : List UInt8) (f : BufFile) : Prop where
  begun : (f.written ++ f.buf) <+: all
  full : f.room = 0
  left : f.written.length = room

theorem writeFile_ok {f : BufFile} {data : List UInt8} (h : data.length ≤ f.room) :
    f.writeFile data = ({ f with written := f.written ++ data, room := f.room - data.length }, true) := by simp [BufFile.writeFile, h]

theorem flush_ok {f : BufFile} (h : f.buf.length ≤ f.room) : f.flush = (⟨f.written ++ f.buf, f.room - f.buf.length, []⟩, true) := by
  simp [BufFile.flush, writeFile_ok h, h]

theorem flush_fails {f : BufFile} (h : ¬ f.buf.length ≤ f.room) : f.flush = (⟨f.written ++ f.buf.take f.room, 0, f.buf.drop f.room⟩, false) := by
  simp [BufFile.flush, BufFile.writeFile, h]

theorem write_inv {cap room : Nat} {all data : List UInt8} {f : BufFile} (h : BufInv cap room all f) :
    ((f.write cap data).2 = true ∧ BufInv cap room (all ++ data) (f.write cap data).1) ∨
    ((f.write cap data).2 = false ∧ room < (all ++ data).length ∧ BufFailed room (all ++ data) (f.write cap data).1) := by
  obtain ⟨h1, h2, h3⟩ := h
  have hl : f.written.length + f.buf.length = all.length := by rw [← h1]; simp
  unfold BufFile.write
  by_cases hs : data.length + f.buf.length < cap
  · rw [if_pos hs]
    exact .inl ⟨rfl, by simp [← h1], by simp; omega, h3⟩
  · rw [if_neg hs]
    by_cases hc : data.length + f.buf.length > cap
    · rw [if_pos hc]
      by_cases hr : f.buf.length ≤ f.room
      · rw [flush_ok hr]
        simp only [if_true]
        by_cases hd : cap ≤ data.length
        · rw [if_pos hd]
          by_cases hk : data.length ≤ f.room - f.buf.length
          · rw [writeFile_ok hk]
            exact .inl ⟨rfl, by simp [← h1], by simp, by simp; omega⟩
          · simp only [BufFile.writeFile, hk, if_false]
            refine .inr ⟨trivial, by simp; omega, ?_, rfl, by simp; omega⟩
            simp only [List.append_nil]
            rw [h1]
            exact (List.prefix_append_right_inj _).mpr (List.take_prefix _ _)
        · rw [if_neg hd]
          exact .inl ⟨rfl, by simp [← h1], by simp; omega, by simp; omega⟩
      · rw [flush_fails hr]
        refine .inr ⟨rfl, by simp; omega, ?_, rfl, by simp; omega⟩
        simp only [Bool.false_eq_true, if_false, List.append_assoc, List.take_append_drop]
        rw [h1]
        exact List.prefix_append _ _
    · rw [if_neg hc]
      simp only [if_true]
      by_cases hd : cap ≤ data.length
      · rw [if_pos hd]
        have h0 : f.buf = [] := List.length_eq_zero_iff.mp (by omega)
        rw [h0, List.append_nil] at h1
        by_cases hk : data.length ≤ f.room
        · rw [writeFile_ok hk]
          exact .inl ⟨rfl, by simp [← h1, h0], by simp [h0], by simp; omega⟩
        · simp only [BufFile.writeFile, hk, if_false]
          refine .inr ⟨trivial, by simp [← h1]; omega, ?_, rfl, by simp; omega⟩
          simp only [h0, List.append_nil, h1]
          exact (List.prefix_append_right_inj _).mpr (List.take_prefix _ _)
      · rw [if_neg hd]
        exact .inl ⟨rfl, by simp [← h1], by simp; omega, h3⟩

theorem pieces_inv {cap room : Nat} : ∀ (ps : List (List UInt8)) (all : List UInt8) (f : BufFile), BufInv cap room all f →
    ((writePieces cap f ps).2 = true ∧ BufInv cap room (all ++ ps.flatten) (writePieces cap f ps).1) ∨
    ((writePieces cap f ps).2 = false ∧ room < (all ++ ps.flatten).length ∧ BufFailed room (all ++ ps.flatten) (writePieces cap f ps).1)
  | [], all, f, h => .inl ⟨rfl, by simpa [writePieces] using h⟩
  | p :: ps, all, f, h => by
    have hw := write_inv (data := p) h
    rcases hp : f.write cap p with ⟨f', ok⟩
    rw [hp] at hw
    rcases hw with ⟨rfl, hw⟩ | ⟨rfl, hl, hw⟩
    · have := pieces_inv ps _ f' hw
      simp only [writePieces, hp, List.flatten_cons]
      rw [← List.append_assoc]
      exact this
    · simp only [writePieces, hp, List.flatten_cons]
      refine .inr ⟨trivial, ?_, ?_, hw.full, hw.left⟩
      · rw [← List.append_assoc, List.length_append]; omega
      · rw [← List.append_assoc]; exact hw.begun.trans (List.prefix_append _ _)

theorem new_inv (cap room : Nat) : BufInv cap room [] ⟨[], room, []⟩ := ⟨rfl, by simp, by simp⟩

/-- what is in the file when it is closed -/
theorem close_prefix {cap room : Nat} {all : List UInt8} {f : BufFile} (h : BufInv cap room all f) :
    f.close.written <+: all ∧ (all.length ≤ room → f.close.written = all) ∧ all.length ≤ f.close.written.length + cap := by
  obtain ⟨h1, h2, h3⟩ := h
  have hl : f.written.length + f.buf.length = all.length := by rw [← h1]; simp
  unfold BufFile.close
  by_cases hr : f.buf.length ≤ f.room
  · rw [flush_ok hr]
    simp only [h1]
    exact ⟨List.prefix_rfl, fun _ => trivial, by omega⟩
  · rw [flush_fails hr]
    refine ⟨?_, fun h => by omega, by simp; omega⟩
    simp only [← h1]
    exact (List.prefix_append_right_inj _).mpr (List.take_prefix _ _)

theorem close_failed {room : Nat} {all : List UInt8} {f : BufFile} (h : BufFailed room all f) : f.close.written = f.written ∧ f.close.written <+: all := by
  have hb : f.written <+: all := (List.prefix_append _ _).trans h.begun
  unfold BufFile.close
  by_cases hr : f.buf.length ≤ f.room
  · have h0 : f.buf = [] := List.length_eq_zero_iff.mp (by have := h.full; omega)
    rw [flush_ok hr, h0]
    simp only [List.append_nil]
    exact ⟨trivial, hb⟩
  · rw [flush_fails hr, h.full]
    simp only [List.take_zero, List.append_nil]
    exact ⟨trivial, hb⟩

/-- what is in a file that was not closed -/
theorem killed_prefix (cap room : Nat) (ps : List (List UInt8)) : (writePieces cap ⟨[], room, []⟩ ps).1.written <+: ps.flatten := by
  rcases pieces_inv ps [] _ (new_inv cap room) with ⟨_, h⟩ | ⟨_, _, h⟩
  · have := h.begun
    rw [List.nil_append] at this
    rw [← this]
    exact List.prefix_append _ _
  · exact (List.prefix_append _ _).trans (by simpa using h.begun)

theorem withFiles_other (files : List (FileName × Generator)) : ∀ (d : Dir) (n : FileName), (∀ g, (n, g) ∉ files) → d.withFiles files n = d n := by
  induction files with
  | nil => intro d n _; rfl
  | cons f fs ih =>
    intro d n h
    show (d.set f.1 f.2.output).withFiles fs n = d n
    rw [ih _ n (fun g hg => h g (List.mem_cons_of_mem _ hg))]
    refine Dir.set_other _ _ ?_
    rintro rfl
    exact h f.2 List.mem_cons_self

theorem withFiles_mem (files : List (FileName × Generator)) : ∀ (d : Dir) (n : FileName) (g : Generator), (files.map (·.1)).Nodup → (n, g) ∈ files → d.withFiles files n = some g.output := by
  induction files with
  | nil => intro d n g _ h; cases h
  | cons f fs ih =>
    intro d n g hn h
    rw [List.map_cons, List.nodup_cons] at hn
    show (d.set f.1 f.2.output).withFiles fs n = _
    rcases List.mem_cons.mp h with rfl | h
    · rw [withFiles_other]
      · exact Dir.set_self _ _ _
      · exact fun g' hg' => hn.1 (List.mem_map.mpr ⟨_, hg', rfl⟩)
    · exact ih _ n g hn.2 h

/-- without distinct names: the last file of a name counts, so each file has the output of one of them -/
theorem withFiles_some (files : List (FileName × Generator)) : ∀ (d : Dir) (n : FileName), d.withFiles files n = d n ∨ ∃ g, (n, g) ∈ files ∧ d.withFiles files n = some g.output := by
  induction files with
  | nil => intro d n; exact .inl rfl
  | cons f fs ih =>
    intro d n
    show (d.set f.1 f.2.output).withFiles fs n = _ ∨ ∃ g, _ ∧ (d.set f.1 f.2.output).withFiles fs n = _
    rcases ih (d.set f.1 f.2.output) n with h | ⟨g, h1, h2⟩
    · rw [h]
      by_cases he : n = f.1
      · subst he
        exact .inr ⟨f.2, List.mem_cons_self, Dir.set_self _ _ _⟩
      · exact .inl (Dir.set_other _ _ he)
    · exact .inr ⟨g, List.mem_cons_of_mem _ h1, h2⟩

/-- writing all files hides what was in them -/
theorem withFiles_congr (files : List (FileName × Generator)) : ∀ (d d' : Dir), (∀ n, (∀ g, (n, g) ∉ files) → d' n = d n) → d'.withFiles files = d.withFiles files := by
  induction files with
  | nil => intro d d' h; exact funext fun n => h n (by simp)
  | cons f fs ih =>
    intro d d' h
    refine ih (d.set f.1 f.2.output) (d'.set f.1 f.2.output) (fun n hn => ?_)
    by_cases he : n = f.1
    · subst he; rw [Dir.set_self, Dir.set_self]
    · rw [Dir.set_other _ _ he, Dir.set_other _ _ he]
      refine h n (fun g hg => ?_)
      rcases List.mem_cons.mp hg with rfl | hg
      · exact he rfl
      · exact hn g hg

end Verif
