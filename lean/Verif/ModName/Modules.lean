import Verif.ModName.Pick

/-!
# Pass 2: the modules
-/

namespace Verif.ModName

theorem needsModule_iff (i : Item) : (i.tag = .record ∧ i.children.any placed = true) ↔ i.needsModule = true := by
  have : placed = fun t => match t with
      | .func | .unsupported | .comment | .namespace => false
      | _ => true := by
    funext t; cases t <;> rfl
  simp only [Item.needsModule, Bool.and_eq_true, beq_iff_eq, this]
  rfl

theorem moduleName_free (snake : Name → Name) (m : Names) (i : Item) : AMap.get? m (moduleName snake m i) = none := by
  have := pickName_free (fun n => (AMap.get? m n).isSome) (AMap.keys m) (fun n h => by
    obtain ⟨v, hv⟩ := Option.isSome_iff_exists.1 h
    exact (AMap.mem_keys_iff m n).2 ⟨v, hv⟩) (baseName snake i.name)
  have hlen : (AMap.keys m).length = m.length := by simp [AMap.keys]
  rw [hlen] at this
  simpa [moduleName] using this

/-- Pass 2 does not panic, … -/
theorem pass2_some (snake : Name → Name) : ∀ (items : List Item) (m : Names), ∃ m', pass2 snake m items = some m'
  | [], m => ⟨m, rfl⟩
  | i :: is, m => by
      simp only [pass2]
      split
      · rw [if_neg (by rw [moduleName_free]; simp)]
        exact pass2_some snake is _
      · exact pass2_some snake is m

theorem insert_length_of_none (m : Names) (n : Name) (r : Resolved) (h : AMap.get? m n = none) :
    (AMap.insert m n r).length = m.length + 1 := by
  have := AMap.keys_insert_of_not_mem m n r ((AMap.get?_eq_none_iff m n).1 h)
  have := congrArg List.length this
  simpa [AMap.keys] using this

/-- … keeps all entries, … -/
theorem pass2_keeps (snake : Name → Name) : ∀ (items : List Item) (m m' : Names), pass2 snake m items = some m' →
    (∀ n v, AMap.get? m n = some v → AMap.get? m' n = some v) ∧ m.length ≤ m'.length ∧
      ((AMap.keys m).Nodup → (AMap.keys m').Nodup)
  | [], m, m', h => by
      simp only [pass2, Option.some.injEq] at h
      subst h
      exact ⟨fun _ _ h => h, Nat.le_refl _, id⟩
  | i :: is, m, m', h => by
      simp only [pass2] at h
      split at h
      · split at h
        · simp at h
        · obtain ⟨h1, h2, h3⟩ := pass2_keeps snake is _ m' h
          have hf := moduleName_free snake m i
          refine ⟨fun n v hv => h1 n v ?_, ?_, fun hn => h3 (AMap.nodup_insert _ _ _ hn)⟩
          · rw [AMap.get?_insert_ne]
            · exact hv
            · rintro rfl; rw [hf] at hv; simp at hv
          · rw [insert_length_of_none _ _ _ hf] at h2; omega
      · exact pass2_keeps snake is m m' h

/-- … and adds one entry for each class that needs a module. -/
theorem pass2_adds (snake : Name → Name) : ∀ (items : List Item) (m m' : Names), pass2 snake m items = some m' →
    ∀ n v, AMap.get? m' n = some v → AMap.get? m n = some v ∨
      ∃ i ∈ items, i.needsModule = true ∧ v = .recordNestedItems [i.id]
  | [], m, m', h => by
      simp only [pass2, Option.some.injEq] at h
      subst h
      exact fun _ _ h => .inl h
  | i :: is, m, m', h => by
      simp only [pass2] at h
      split at h
      · rename_i hi
        split at h
        · simp at h
        · intro n v hv
          rcases pass2_adds snake is _ m' h n v hv with h1 | ⟨j, hj, h1⟩
          · rw [AMap.get?_insert] at h1
            split at h1
            · exact .inr ⟨i, by simp, (needsModule_iff i).1 hi, by simpa using h1.symm⟩
            · exact .inl h1
          · exact .inr ⟨j, List.mem_cons_of_mem _ hj, h1⟩
      · intro n v hv
        rcases pass2_adds snake is m m' h n v hv with h1 | ⟨j, hj, h1⟩
        · exact .inl h1
        · exact .inr ⟨j, List.mem_cons_of_mem _ hj, h1⟩

/-- The state in which a class gets its module. -/
theorem pass2_module (snake : Name → Name) : ∀ (items : List Item) (m m' : Names), pass2 snake m items = some m' →
    ∀ i ∈ items, i.needsModule = true → ∃ before after m₁, items = before ++ i :: after ∧
      pass2 snake m before = some m₁ ∧
      pass2 snake (AMap.insert m₁ (moduleName snake m₁ i) (.recordNestedItems [i.id])) after = some m'
  | [], m, m', h => by simp
  | j :: is, m, m', h => by
      intro i hi hn
      by_cases hji : i = j
      · subst hji
        simp only [pass2, (needsModule_iff i).2 hn, and_self, if_true] at h
        split at h
        · simp at h
        · exact ⟨[], is, m, rfl, rfl, h⟩
      · have hi' : i ∈ is := by simpa [hji] using hi
        simp only [pass2] at h
        split at h
        · rename_i hj
          split at h
          · simp at h
          · rename_i hf
            obtain ⟨b, a, m₁, h1, h2, h3⟩ := pass2_module snake is _ m' h i hi' hn
            exact ⟨j :: b, a, m₁, by simp [h1], by rw [pass2, if_pos hj, if_neg hf]; exact h2, h3⟩
        · rename_i hj
          obtain ⟨b, a, m₁, h1, h2, h3⟩ := pass2_module snake is _ m' h i hi' hn
          exact ⟨j :: b, a, m₁, by simp [h1], by rw [pass2, if_neg hj]; exact h2, h3⟩

end Verif.ModName
