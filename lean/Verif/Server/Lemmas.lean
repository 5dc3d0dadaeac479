import Verif.Server.Model
import Verif.Server.Spec
import Verif.Load.Props
import Verif.Packet.RespondProps
/-
Reading records does not depend on the header or on what follows.
-/
namespace Gdnsd.Server
open EncSpec

theorem get_over {h h' x y : Bytes} (hh : h.length = 12) (hh' : h'.length = 12) {i : Nat} (hi : 12 ≤ i) {b : UInt8}
    (e : (h ++ x)[i]? = some b) : (h' ++ x ++ y)[i]? = some b := by
  rw [List.getElem?_append_right (by omega), hh] at e
  have hlt := (List.getElem?_eq_some_iff.mp e).1
  rw [List.getElem?_append_left (by simp only [List.length_append]; omega), List.getElem?_append_right (by omega), hh', e]

theorem prefix_over {h h' x y : Bytes} (hh : h.length = 12) (hh' : h'.length = 12) {i : Nat} (hi : 12 ≤ i) {b : Bytes}
    (e : b <+: (h ++ x).drop i) : b <+: (h' ++ x ++ y).drop i := by
  have e1 : (h ++ x).drop i = x.drop (i - 12) := by
    rw [List.drop_append, List.drop_eq_nil_of_le (by omega), hh, List.nil_append]
  have e2 : (h' ++ x ++ y).drop i = x.drop (i - 12) ++ y.drop (i - 12 - x.length) := by
    rw [List.append_assoc, List.drop_append, List.drop_eq_nil_of_le (by omega), hh', List.nil_append, List.drop_append]
  rw [e1] at e
  rw [e2]
  exact e.trans (List.prefix_append _ _)

theorem NameAt_ge {p : Bytes} {off : Nat} {ls : List Bytes} {e : Nat} (h : NameAt p off ls e) : off ≤ e := by
  induction h with
  | root => omega
  | label _ _ _ _ _ ih => omega
  | ptr => omega

theorem NameAt_over {h h' x y : Bytes} (hh : h.length = 12) (hh' : h'.length = 12) {off : Nat} {ls : List Bytes} {e : Nat}
    (n : NameAt (h ++ x) off ls e) (ho : 12 ≤ off) : NameAt (h' ++ x ++ y) off ls e := by
  induction n with
  | root e => exact .root (get_over hh hh' ho e)
  | label h1 h2 h3 h4 _ ih => exact .label h1 h2 (get_over hh hh' ho h3) (prefix_over hh hh' (by omega) h4) (ih (by omega))
  | ptr h1 h2 h3 h4 h5 h6 _ ih => exact .ptr (get_over hh hh' ho h1) h2 (get_over hh hh' (by omega) h3) h4 h5 h6 (ih h6)

theorem U16At_over {h h' x y : Bytes} (hh : h.length = 12) (hh' : h'.length = 12) {off v : Nat}
    (n : U16At (h ++ x) off v) (ho : 12 ≤ off) : U16At (h' ++ x ++ y) off v := by
  obtain ⟨a, b, h1, h2, h3⟩ := n
  exact ⟨a, b, get_over hh hh' ho h1, get_over hh hh' (by omega) h2, h3⟩

theorem PiecesAt_over {h h' x y : Bytes} (hh : h.length = 12) (hh' : h'.length = 12) {off : Nat} {ps : List Piece} {e : Nat}
    (n : PiecesAt (h ++ x) off ps e) (ho : 12 ≤ off) : PiecesAt (h' ++ x ++ y) off ps e := by
  induction n with
  | nil => exact .nil
  | bytes h1 _ ih => exact .bytes (prefix_over hh hh' ho h1) (ih (by omega))
  | name h1 _ ih =>
    obtain ⟨ls', a, b⟩ := h1
    have := NameAt_ge a
    exact .name ⟨ls', NameAt_over hh hh' a ho, b⟩ (ih (by omega))

theorem RecsAt_over {h h' x y : Bytes} (hh : h.length = 12) (hh' : h'.length = 12) {off : Nat} {rs : List Rec} {e : Nat}
    (n : RecsAt (h ++ x) off rs e) (ho : 12 ≤ off) : RecsAt (h' ++ x ++ y) off rs e := by
  induction n with
  | nil => exact .nil
  | cons h1 _ ih =>
    obtain ⟨e1, n, ⟨ls', a, b⟩, h2, h3, ⟨hi, lo, h4, h5, h6⟩, h7, h8, h9⟩ := h1
    have := NameAt_ge a
    exact .cons ⟨e1, n, ⟨ls', NameAt_over hh hh' a ho, b⟩, U16At_over hh hh' h2 (by omega), U16At_over hh hh' h3 (by omega),
      ⟨hi, lo, U16At_over hh hh' h4 (by omega), U16At_over hh hh' h5 (by omega), h6⟩, U16At_over hh hh' h7 (by omega),
      PiecesAt_over hh hh' h8 (by omega), h9⟩ (ih (by omega))

/-- Every record takes some bytes. -/
theorem RecsAt_count {p : Bytes} {off : Nat} {rs : List Rec} {e : Nat} (n : RecsAt p off rs e) : off + rs.length ≤ e := by
  induction n with
  | nil => simp
  | cons h1 _ ih =>
    obtain ⟨e1, n, ⟨ls', a, b⟩, h2, h3, h4, h7, h8, h9⟩ := h1
    have := NameAt_ge a
    simp only [List.length_cons]; omega

theorem U16At_put {m : Bytes} {i n : Nat} (hn : n < 65536) (h0 : m[i]? = some (UInt8.ofNat (n / 256))) (h1 : m[i + 1]? = some (UInt8.ofNat n)) :
    U16At m i n := by
  refine ⟨_, _, h0, h1, ?_⟩
  rw [UInt8.toNat_ofNat', UInt8.toNat_ofNat']
  omega

end Gdnsd.Server
