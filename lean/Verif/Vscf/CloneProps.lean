/-
C79: copies of data, and keys that are inherited.
-/
import Verif.Vscf.Clone
import Verif.Vscf.CloneSpec
import Verif.Vscf.TableSpec
import Verif.Vscf.ConvLemmas
import Verif.Vscf.Spec
namespace Gdnsd.Vscf
open VscfSpec

/-! ### Keys -/

theorem has_iff {es : List (Entry Val)} {k : Bytes} : Has es k ↔ k ∈ es.map (·.key) := by
  simp [Has]

theorem find_none {es : List (Entry Val)} {k : Bytes} : find es k = none ↔ ¬ Has es k := by
  simp [find, Has]

theorem find_some {es : List (Entry Val)} {k : Bytes} {v : Val} (h : find es k = some v) : ∃ e ∈ es, e.key = k ∧ e.val = v := by
  simp only [find, Option.map_eq_some_iff] at h
  obtain ⟨e, h1, h2⟩ := h
  exact ⟨e, List.mem_of_find?_eq_some h1, by simpa using List.find?_some h1, h2⟩

theorem find_mem {es : List (Entry Val)} (hn : (es.map (·.key)).Nodup) {e : Entry Val} (he : e ∈ es) : find es e.key = some e.val := by
  induction es with
  | nil => cases he
  | cons a es ih =>
    simp only [List.map_cons, List.nodup_cons] at hn
    rcases List.mem_cons.mp he with rfl | he
    · simp [find]
    · have hne : a.key ≠ e.key := fun h => hn.1 (by rw [h]; exact List.mem_map_of_mem he)
      have := ih hn.2 he
      simp only [find, List.find?_cons] at this ⊢
      rw [show (a.key == e.key) = false by simpa using hne]
      exact this

theorem addEntry_new {es : List (Entry Val)} {k : Bytes} {v : Val} (h : ¬ Has es k) : addEntry es k v = some (es ++ [⟨k, false, v⟩]) := by
  have hc : (keys es).contains k = false := by
    rw [has_iff] at h
    simpa [keys] using h
  simp only [addEntry, hc, cond_false]

/-! ### Copies -/

mutual

theorem clone_ok (ig : Bool) : ∀ v, Sound v → ∃ w, clone ig v = .ok w ∧ Copy ig v w
  | .simple r v, _ => ⟨_, rfl, .simple⟩
  | .array vs, .array h => by
    obtain ⟨ws, h1, h2⟩ := cloneVs_ok ig vs h
    exact ⟨_, by simp [clone, h1], .array h2⟩
  | .hash es, .hash hn h => by
    obtain ⟨fs, h1, h2⟩ := cloneEs_ok ig es [] h hn (by simp [Has])
    exact ⟨.hash fs, by simp [clone, h1], .hash h2⟩

theorem cloneVs_ok (ig : Bool) : ∀ vs, Sounds vs → ∃ ws, cloneVs ig vs = .ok ws ∧ Copies ig vs ws
  | [], _ => ⟨_, rfl, .nil⟩
  | v :: vs, .cons h hs => by
    obtain ⟨w, h1, h2⟩ := clone_ok ig v h
    obtain ⟨ws, h3, h4⟩ := cloneVs_ok ig vs hs
    exact ⟨_, by simp [cloneVs, h1, h3], .cons h2 h4⟩

theorem cloneEs_ok (ig : Bool) : ∀ es acc, SoundOf es → (es.map (·.key)).Nodup → (∀ e ∈ es, ¬ Has acc e.key) →
    ∃ fs, cloneEs ig es acc = .ok (acc ++ fs) ∧ CopyOf ig es fs
  | [], acc, _, _, _ => ⟨[], by simp [cloneEs], .nil⟩
  | ⟨k, m, v⟩ :: es, acc, .cons h hs, hn, hd => by
    simp only [List.map_cons, List.nodup_cons] at hn
    by_cases hk : ig = true ∧ m = true
    · obtain ⟨rfl, rfl⟩ := hk
      obtain ⟨fs, h1, h2⟩ := cloneEs_ok true es acc hs hn.2 fun e he => hd e (by simp [he])
      exact ⟨fs, by simp [cloneEs, h1], .skip rfl h2⟩
    · have hk' : (!ig || !m) = true := by cases ig <;> cases m <;> simp_all
      obtain ⟨w, h1, h2⟩ := clone_ok ig v h
      have ha := addEntry_new (v := w) (hd ⟨k, m, v⟩ (by simp))
      obtain ⟨fs, h3, h4⟩ := cloneEs_ok ig es (acc ++ [⟨k, false, w⟩]) hs hn.2 fun e he => by
        rintro ⟨f, hf, e'⟩
        rcases List.mem_append.mp hf with hf | hf
        · exact hd e (by simp [he]) ⟨f, hf, e'⟩
        · simp only [List.mem_singleton] at hf
          subst hf
          exact hn.1 (by rw [show k = e.key from e']; exact List.mem_map_of_mem he)
      refine ⟨⟨k, false, w⟩ :: fs, ?_, .keep (fun hi => by cases m <;> simp_all) h2 h4⟩
      dsimp only at ha
      simp only [cloneEs, hk', cond_true, h1, Outcome.bind_ok, ha, h3, List.append_assoc, List.singleton_append]

end

/-- Copying data ends well, with the same data: nothing is lost but marks, and what is marked if that is not
wanted. -/
theorem C79_clone {ignore : Bool} {v : Val} (h : Sound v) : ∃ w, clone ignore v = .ok w ∧ Copy ignore v w :=
  clone_ok ignore v h

mutual

theorem copy_clean {ig ig' : Bool} : ∀ {v w}, Copy ig v w → Copy ig' w w
  | _, _, .simple => .simple
  | _, _, .array h => .array (copies_clean h)
  | _, _, .hash h => .hash (copyOf_clean h)

theorem copies_clean {ig ig' : Bool} : ∀ {v w}, Copies ig v w → Copies ig' w w
  | _, _, .nil => .nil
  | _, _, .cons h hs => .cons (copy_clean h) (copies_clean hs)

theorem copyOf_clean {ig ig' : Bool} : ∀ {v w}, CopyOf ig v w → CopyOf ig' w w
  | _, _, .nil => .nil
  | _, _, .keep _ h hs => .keep (fun _ => rfl) (copy_clean h) (copyOf_clean hs)
  | _, _, .skip _ hs => copyOf_clean hs

end

theorem copyOf_keys {ig : Bool} {es fs : List (Entry Val)} (h : CopyOf ig es fs) : (fs.map (·.key)).Sublist (es.map (·.key)) := by
  induction es generalizing fs with
  | nil => cases h; simp
  | cons e es ih =>
    cases h with
    | keep _ _ h => simpa using ih h
    | skip _ h => exact (ih h).cons _

mutual

theorem copy_sound {ig : Bool} : ∀ {v w}, Copy ig v w → Sound v → Sound w
  | _, _, .simple, _ => .simple
  | _, _, .array h, .array hs => .array (copies_sound h hs)
  | _, _, .hash h, .hash hn hs => .hash ((copyOf_keys h).nodup hn) (copyOf_sound h hs)

theorem copies_sound {ig : Bool} : ∀ {v w}, Copies ig v w → Sounds v → Sounds w
  | _, _, .nil, _ => .nil
  | _, _, .cons h hs, .cons h' hs' => .cons (copy_sound h h') (copies_sound hs hs')

theorem copyOf_sound {ig : Bool} : ∀ {v w}, CopyOf ig v w → SoundOf v → SoundOf w
  | _, _, .nil, _ => .nil
  | _, _, .keep _ h hs, .cons h' hs' => .cons (copy_sound h h') (copyOf_sound hs hs')
  | _, _, .skip _ hs, .cons _ hs' => copyOf_sound hs hs'

end

/-- A copy has no marks: whoever copies it again, even without what is marked, gets the same. And its keys are
different in every hash. -/
theorem C79_clone_clean {ignore again : Bool} {v w : Val} (hs : Sound v) (h : clone ignore v = .ok w) : Copy again w w ∧ Sound w := by
  obtain ⟨w', h1, h2⟩ := clone_ok ignore v hs
  rw [h1] at h
  simp only [Outcome.ok.injEq] at h
  subst h
  exact ⟨copy_clean h2, copy_sound h2 hs⟩

/-! ### Data from files -/

theorem soundOf_append : ∀ {es fs}, SoundOf es → SoundOf fs → SoundOf (es ++ fs)
  | _, _, .nil, h => h
  | _, _, .cons h hs, h' => .cons h (soundOf_append hs h')

mutual

theorem value_sound {env : Env} {touch : Bool} : ∀ {fn x k v}, Value env touch fn x k v → Sound v
  | _, _, _, _, .word _ => .simple
  | _, _, _, _, .array h => .array (values_sound h)
  | _, _, _, _, .hash h hn => .hash hn (assigns_sound h)
  | _, _, _, _, .incl _ h => file_sound h

theorem values_sound {env : Env} {touch : Bool} : ∀ {fn t vs}, Values env touch fn t vs → Sounds vs
  | _, _, _, .nil _ => .nil
  | _, _, _, .cons _ h _ _ hs _ => .cons (value_sound h) (values_sound hs)

theorem assigns_sound {env : Env} {touch : Bool} : ∀ {fn t es}, Assigns env touch fn t es → SoundOf es
  | _, _, _, .nil _ => .nil
  | _, _, _, .cons _ _ _ _ _ h _ _ hs _ => .cons (value_sound h) (assigns_sound hs)
  | _, _, _, .merge _ _ h _ _ hs => soundOf_append (merged_sound h) (assigns_sound hs)

theorem merged_sound {env : Env} {touch : Bool} : ∀ {ps es}, Merged env touch ps es → SoundOf es
  | _, _, .nil => .nil
  | _, _, .cons (.mk _ (.hash h _)) hs => soundOf_append (assigns_sound h) (merged_sound hs)

theorem file_sound {env : Env} {touch : Bool} : ∀ {p v}, File env touch p v → Sound v
  | _, _, .mk _ (.hash h hn) => .hash hn (assigns_sound h)
  | _, _, .mk _ (.array _ h _) => .array (values_sound h)

end

/-- What is read from a file may be copied: its keys are different in every hash. -/
theorem C79_files {env : Env} {touch : Bool} {p : Bytes} {v : Val} (h : File env touch p v) : Sound v :=
  file_sound h

/-! ### Inheritance -/

theorem soundOf_mem : ∀ {es} {e : Entry Val}, SoundOf es → e ∈ es → Sound e.val
  | [], _, _, h => by cases h
  | _ :: _, _, .cons h hs, he => by
    rcases List.mem_cons.mp he with rfl | he
    · exact h
    · exact soundOf_mem hs he

/-- A key is inherited if the source has it and the destination does not, as a copy that is the last entry.
What is there is not changed. -/
theorem C79_inherit {src dest : List (Entry Val)} {k : Bytes} (mark : Bool) (hk : 0 ∉ k) (hn : (src.map (·.key)).Nodup) (hs : SoundOf src) :
    ∃ dest', inherit src dest k mark = .ok (if mark = true then Dict.mark src k else src, dest') ∧
      ((¬ Has src k ∨ Has dest k) ∧ dest' = dest ∨ ∃ e ∈ src, ∃ w, e.key = k ∧ ¬ Has dest k ∧ Copy false e.val w ∧ dest' = dest ++ [⟨k, false, w⟩]) := by
  have hc : cstr k = k := cstr_self hk
  unfold inherit
  rw [hc]
  dsimp only
  have hm : setMark src k = Dict.mark src k := rfl
  rw [hm]
  cases hf : find src k with
  | none => exact ⟨dest, rfl, Or.inl ⟨Or.inl (find_none.mp hf), rfl⟩⟩
  | some v =>
    obtain ⟨e, he, rfl, rfl⟩ := find_some hf
    cases hd : find dest e.key with
    | some _ =>
      refine ⟨dest, rfl, Or.inl ⟨Or.inr ?_, rfl⟩⟩
      obtain ⟨f, hf, h, _⟩ := find_some hd
      exact ⟨f, hf, h⟩
    | none =>
      have hd := find_none.mp hd
      obtain ⟨w, h1, h2⟩ := clone_ok false e.val (soundOf_mem hs he)
      refine ⟨dest ++ [⟨e.key, false, w⟩], ?_, Or.inr ⟨e, he, w, rfl, hd, h2, rfl⟩⟩
      simp [h1, addEntry_new hd]

/-- All keys are inherited: the destination keeps its entries, and behind them are copies of those of the
source it did not have, in their order, without marked ones if these are not wanted. -/
theorem C79_inherit_all {src dest : List (Entry Val)} {skip : Bool} (hk : ∀ e ∈ src, 0 ∉ e.key) (hn : (src.map (·.key)).Nodup) (hs : SoundOf src) :
    ∃ fs, inheritAll src dest skip = .ok (dest ++ fs) ∧ HandDown skip dest src fs := by
  suffices ∀ (rest gs : List (Entry Val)), (∀ e ∈ rest, e ∈ src) → (rest.map (·.key)).Nodup → (∀ e ∈ rest, ¬ Has gs e.key) →
      ∃ fs, inheritFrom src skip rest (dest ++ gs) = .ok (dest ++ gs ++ fs) ∧ HandDown skip dest rest fs by
    obtain ⟨fs, h1, h2⟩ := this src [] (fun _ h => h) hn (by simp [Has])
    exact ⟨fs, by simpa [inheritAll] using h1, h2⟩
  intro rest
  induction rest with
  | nil => exact fun gs _ _ _ => ⟨[], by simp [inheritFrom], .nil⟩
  | cons e rest ih =>
    intro gs hsub hnd hgs
    simp only [List.map_cons, List.nodup_cons] at hnd
    by_cases hsk : skip = false ∨ e.marked = false
    · have he := hsub e (by simp)
      obtain ⟨dest', h1, h2⟩ := C79_inherit (dest := dest ++ gs) false (hk e he) hn hs
      simp only [Bool.false_eq_true, if_false] at h1
      rcases h2 with ⟨h2, rfl⟩ | ⟨e', he', w, h2, h3, h4, rfl⟩
      · have hd : Has dest e.key := by
          rcases h2 with h2 | ⟨f, hf, h2⟩
          · exact absurd ⟨e, he, rfl⟩ h2
          · rcases List.mem_append.mp hf with hf | hf
            · exact ⟨f, hf, h2⟩
            · exact absurd ⟨f, hf, h2⟩ (hgs e (by simp))
        obtain ⟨fs, h5, h6⟩ := ih gs (fun x hx => hsub x (by simp [hx])) hnd.2 fun x hx => hgs x (by simp [hx])
        exact ⟨fs, by simp only [inheritFrom, if_pos hsk, h1, Outcome.bind_ok, h5], .own hd h6⟩
      · have hee : e'.val = e.val := by
          have a := find_mem hn he'
          have b := find_mem hn he
          rw [h2, b] at a
          exact (Option.some.inj a).symm
        obtain ⟨fs, h5, h6⟩ := ih (gs ++ [⟨e.key, false, w⟩]) (fun x hx => hsub x (by simp [hx])) hnd.2 fun x hx => by
          rintro ⟨f, hf, hfk⟩
          rcases List.mem_append.mp hf with hf | hf
          · exact hgs x (by simp [hx]) ⟨f, hf, hfk⟩
          · simp only [List.mem_singleton] at hf
            subst hf
            exact hnd.1 (by rw [show e.key = x.key from hfk]; exact List.mem_map_of_mem hx)
        refine ⟨⟨e.key, false, w⟩ :: fs, ?_, ?_⟩
        · rw [inheritFrom, if_pos hsk, h1, Outcome.bind_ok]
          dsimp only
          rw [List.append_assoc dest, h5]
          simp
        · obtain ⟨k, m, v⟩ := e
          refine .give (fun h => ?_) (fun ⟨f, hf, hfk⟩ => h3 ⟨f, by simp [hf], hfk⟩) (by dsimp only at hee; rw [← hee]; exact h4) h6
          rcases hsk with hsk | hsk
          · rw [hsk] at h; cases h
          · exact hsk
    · have hsk' : skip = true ∧ e.marked = true := by
        cases hsk1 : skip <;> cases hsk2 : e.marked <;> simp_all
      obtain ⟨fs, h5, h6⟩ := ih gs (fun x hx => hsub x (by simp [hx])) hnd.2 fun x hx => hgs x (by simp [hx])
      exact ⟨fs, by simp only [inheritFrom, if_neg hsk, h5], .skip hsk'.1 hsk'.2 h6⟩

/-- Changing the value of another key leaves the value of a key. -/
theorem find_set {A B : List (Entry Val)} {e : Entry Val} {v : Val} {k : Bytes} (hk : e.key ≠ k) : find (A ++ { e with val := v } :: B) k = find (A ++ e :: B) k := by
  simp only [find, List.find?_append, List.find?_cons]
  rw [show (e.key == k) = false by simpa using hk]

theorem bequeath_loop {k : Bytes} {skip : Bool} {v : Val} (hv : Sound v) : ∀ (B A : List (Entry Val)), find (A ++ B) k = some v →
    (∀ e ∈ B, e.key = k → e.val = v ∧ ∀ es, v = .hash es → Has es k ∨ (skip = true ∧ e.marked = true)) →
    ∃ B', bequeathFrom k skip B.length A.length (A ++ B) = .ok (A ++ B') ∧ Children skip k v B B' := by
  intro B
  induction B with
  | nil => exact fun A _ _ => ⟨[], rfl, .nil⟩
  | cons e B ih =>
    intro A hf hown
    have hat : (A ++ e :: B)[A.length]? = some e := by simp
    -- the child is left as it is
    have stay : Child skip k v e e → bequeathFrom k skip (e :: B).length A.length (A ++ e :: B) = bequeathFrom k skip B.length (A.length + 1) (A ++ e :: B) →
        ∃ B', bequeathFrom k skip (e :: B).length A.length (A ++ e :: B) = .ok (A ++ B') ∧ Children skip k v (e :: B) B' := by
      intro hch heq
      obtain ⟨B', h1, h2⟩ := ih (A ++ [e]) (by simpa using hf) fun x hx => hown x (by simp [hx])
      refine ⟨e :: B', ?_, .cons hch h2⟩
      rw [heq]
      simpa using h1
    cases hval : e.val with
    | simple r s => exact stay (.other (by simp [hval])) (by simp [bequeathFrom, hf, hval])
    | array vs => exact stay (.other (by simp [hval])) (by simp [bequeathFrom, hf, hval])
    | hash es =>
      obtain ⟨key, m, val⟩ := e
      dsimp only at hval
      subst hval
      by_cases hsk : skip = false ∨ m = false
      · cases hfe : find es k with
        | some x =>
          obtain ⟨f, hf1, hf2, _⟩ := find_some hfe
          exact stay (.has ⟨f, hf1, hf2⟩) (by simp [bequeathFrom, hf, hfe])
        | none =>
          have hno := find_none.mp hfe
          have hkk : key ≠ k := by
            intro hkk
            obtain ⟨rfl, h2⟩ := hown _ List.mem_cons_self hkk
            rcases h2 es rfl with h | ⟨h, h'⟩
            · exact hno h
            · dsimp only at h'
              rcases hsk with hsk | hsk
              · rw [hsk] at h; cases h
              · rw [hsk] at h'; cases h'
          obtain ⟨w, h1, h2⟩ := clone_ok false v hv
          have hset : (A ++ ⟨key, m, .hash es⟩ :: B).set A.length ⟨key, m, .hash (es ++ [⟨k, false, w⟩])⟩ = A ++ [⟨key, m, .hash (es ++ [⟨k, false, w⟩])⟩] ++ B := by
            simp
          have hf' : find (A ++ [⟨key, m, .hash (es ++ [⟨k, false, w⟩])⟩] ++ B) k = some v := by
            have := find_set (A := A) (B := B) (e := ⟨key, m, .hash es⟩) (v := .hash (es ++ [⟨k, false, w⟩])) hkk
            rw [hf] at this
            simpa using this
          obtain ⟨B', h3, h4⟩ := ih (A ++ [⟨key, m, .hash (es ++ [⟨k, false, w⟩])⟩]) hf' fun x hx => hown x (by simp [hx])
          refine ⟨⟨key, m, .hash (es ++ [⟨k, false, w⟩])⟩ :: B', ?_, .cons (.gets (fun h => ?_) hno h2) h4⟩
          · simp only [List.length_cons, bequeathFrom, hat, hf]
            rw [if_pos ⟨hsk, by simp [hfe]⟩, h1, Outcome.bind_ok, addEntry_new hno, Option.getD_some, hset]
            simpa using h3
          · rcases hsk with hsk | hsk
            · rw [hsk] at h; cases h
            · exact hsk
      · have hsk' : skip = true ∧ m = true := by
          cases skip <;> cases m <;> simp_all
        obtain ⟨rfl, rfl⟩ := hsk'
        exact stay (.skip rfl rfl) (by simp [bequeathFrom, hf])

/-- A key of a hash is handed down to its children: those that are hashes and do not have it get a copy as
their last entry, and nothing else changes. Partial: only if the value of the key is not one of those
children, see `C79_bequeath_itself`. -/
theorem C79_bequeath_partial {src : List (Entry Val)} {k : Bytes} {mark skip : Bool} (hk : 0 ∉ k) (hn : (src.map (·.key)).Nodup) (hs : SoundOf src)
    (hown : ∀ e ∈ src, e.key = k → ∀ es, e.val = .hash es → Has es k ∨ (skip = true ∧ (mark = true ∨ e.marked = true))) :
    (¬ Has src k ∧ bequeath src k mark skip = .ok (src, false)) ∨
    ∃ e ∈ src, ∃ src', e.key = k ∧ bequeath src k mark skip = .ok (src', true) ∧ Children skip k e.val (if mark = true then Dict.mark src k else src) src' := by
  have hc : cstr k = k := cstr_self hk
  unfold bequeath
  rw [hc]
  dsimp only
  have hm : setMark src k = Dict.mark src k := rfl
  rw [hm]
  cases hf : find src k with
  | none => exact Or.inl ⟨find_none.mp hf, rfl⟩
  | some v =>
    right
    obtain ⟨e, he, hek, rfl⟩ := find_some hf
    have hfm : find (Dict.mark src k) k = some e.val := by
      rw [← hf]
      simp only [find, Dict.mark]
      clear hf hown hs hn he hek hm
      induction src with
      | nil => rfl
      | cons a r ih =>
        simp only [List.map_cons, List.find?_cons]
        by_cases ha : a.key = k
        · simp [ha]
        · simp only [ha, if_false]
          rw [show (a.key == k) = false by simpa using ha]
          exact ih
    have hlen : (Dict.mark src k).length = src.length := by simp [Dict.mark]
    have hval : ∀ x ∈ src, x.key = k → x.val = e.val := fun x hx hxk => by
      have := find_mem hn hx
      rw [hxk, hf] at this
      exact (Option.some.inj this).symm
    obtain ⟨B', h1, h2⟩ : ∃ B', bequeathFrom k skip src.length 0 (if mark = true then Dict.mark src k else src) = .ok B' ∧
        Children skip k e.val (if mark = true then Dict.mark src k else src) B' := by
      cases mark with
      | true =>
        simp only [if_true]
        rw [← hlen]
        refine bequeath_loop (soundOf_mem hs he) (Dict.mark src k) [] hfm fun x hx hxk => ?_
        obtain ⟨y, hy, rfl⟩ := List.mem_map.mp hx
        have hyk : y.key = k := by split at hxk <;> exact hxk
        rw [if_pos hyk]
        refine ⟨hval y hy hyk, fun es hes => ?_⟩
        rcases hown y hy hyk es (by rw [hval y hy hyk]; exact hes) with h | h
        · exact Or.inl h
        · exact Or.inr ⟨h.1, rfl⟩
      | false =>
        simp only [Bool.false_eq_true, if_false]
        refine bequeath_loop (soundOf_mem hs he) src [] hf fun x hx hxk => ⟨hval x hx hxk, fun es hes => ?_⟩
        rcases hown x hx hxk es (by rw [hval x hx hxk]; exact hes) with h | ⟨h, h'⟩
        · exact Or.inl h
        · exact Or.inr ⟨h, by simpa using h'⟩
    exact ⟨e, he, B', hek, by rw [h1]; rfl, h2⟩

/-- A value that is not an array is used as an array with this one value. -/
theorem C79_arrays (v : Val) : (∃ vs, v = .array vs ∧ arrLen v = vs.length ∧ ∀ i, arrGet v i = vs[i]?) ∨
    ((∀ vs, v ≠ .array vs) ∧ arrLen v = 1 ∧ ∀ i, arrGet v i = [v][i]?) := by
  cases v with
  | array vs =>
    refine Or.inl ⟨vs, rfl, rfl, fun i => ?_⟩
    simp only [arrGet]
    split
    · rw [List.getElem?_eq_none (by omega)]
    · rfl
  | simple r v =>
    refine Or.inr ⟨by simp, rfl, fun i => ?_⟩
    cases i <;> simp [arrGet]
  | hash es =>
    refine Or.inr ⟨by simp, rfl, fun i => ?_⟩
    cases i <;> simp [arrGet]

/-! ### What is not so, and examples -/

/-- `k = { a = 1 }, c = {}` -/
def beqEx : List (Entry Val) := [⟨[107], false, .hash [⟨[97], false, .simple [49] [49]⟩]⟩, ⟨[99], false, .hash []⟩]

/-- The value of a key that is a hash gets a copy of itself, and all children behind it get the changed one. -/
theorem C79_bequeath_itself : bequeath beqEx [107] false false =
    .ok ([⟨[107], false, .hash [⟨[97], false, .simple [49] [49]⟩, ⟨[107], false, .hash [⟨[97], false, .simple [49] [49]⟩]⟩]⟩,
      ⟨[99], false, .hash [⟨[107], false, .hash [⟨[97], false, .simple [49] [49]⟩, ⟨[107], false, .hash [⟨[97], false, .simple [49] [49]⟩]⟩]⟩]⟩], true) := by
  rfl

/-- A key with a zero byte is not handed down. -/
theorem C79_inherit_zero : inheritAll [⟨[97, 0, 98], false, .simple [49] [49]⟩] [] false = .ok [] := by
  rfl

/-- `k = v, a = {}, b = { k = w }, c = x` -/
def exSrc : List (Entry Val) :=
  [⟨[107], false, .simple [118] [118]⟩, ⟨[97], false, .hash []⟩, ⟨[98], false, .hash [⟨[107], false, .simple [119] [119]⟩]⟩, ⟨[99], true, .simple [120] [120]⟩]

example : SoundOf exSrc ∧ (exSrc.map (·.key)).Nodup ∧ (∀ e ∈ exSrc, 0 ∉ e.key) ∧
    (∀ e ∈ exSrc, e.key = [107] → ∀ es, e.val = .hash es → Has es [107] ∨ (true = true ∧ (true = true ∨ e.marked = true))) := by
  refine ⟨.cons .simple (.cons (.hash (by decide) .nil) (.cons (.hash (by decide) (.cons .simple .nil)) (.cons .simple .nil))), by decide, by decide, ?_⟩
  exact fun _ _ _ _ _ => Or.inr ⟨rfl, Or.inl rfl⟩

example : inheritAll exSrc [⟨[97], false, .simple [] []⟩] true =
    .ok [⟨[97], false, .simple [] []⟩, ⟨[107], false, .simple [118] [118]⟩, ⟨[98], false, .hash [⟨[107], false, .simple [119] [119]⟩]⟩] := by
  rfl

example : bequeath exSrc [107] false false = .ok ([⟨[107], false, .simple [118] [118]⟩, ⟨[97], false, .hash [⟨[107], false, .simple [118] [118]⟩]⟩,
    ⟨[98], false, .hash [⟨[107], false, .simple [119] [119]⟩]⟩, ⟨[99], true, .simple [120] [120]⟩], true) := by
  rfl

end Gdnsd.Vscf
