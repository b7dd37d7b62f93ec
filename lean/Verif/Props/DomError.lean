import Verif.Model.DomError
import Verif.Lemmas.PyDict

/-!
C136: what the DOM exceptions carry.
-/

set_option linter.unusedSimpArgs false

namespace SvgPy.DomError

/-! ### Specification -/

/-- The names with a legacy code in Web IDL, without those it marks as deprecated. -/
def legacy : List (String × Nat) :=
  [("HierarchyRequestError", 3), ("WrongDocumentError", 4), ("InvalidCharacterError", 5),
   ("NoModificationAllowedError", 7), ("NotFoundError", 8), ("NotSupportedError", 9), ("InUseAttributeError", 10),
   ("InvalidStateError", 11), ("SyntaxError", 12), ("InvalidModificationError", 13), ("NamespaceError", 14),
   ("SecurityError", 18), ("NetworkError", 19), ("AbortError", 20), ("URLMismatchError", 21), ("QuotaExceededError", 22),
   ("TimeoutError", 23), ("InvalidNodeTypeError", 24), ("DataCloneError", 25)]

/-- The deprecated names of Web IDL and their codes. -/
def deprecated : List (String × Nat) := [("IndexSizeError", 1), ("InvalidAccessError", 15), ("TypeMismatchError", 17)]

/-- The keyword arguments: a message, a name, in this order or the other, or one or none of them. -/
inductive Keywords : Dict Str Str → Option Str → Option Str → Prop
  | none : Keywords [] none none
  | message (m) : Keywords [("message".toList, m)] (some m) none
  | name (n) : Keywords [("name".toList, n)] none (some n)
  | both (m n) : Keywords [("message".toList, m), ("name".toList, n)] (some m) (some n)
  | both' (m n) : Keywords [("name".toList, n), ("message".toList, m)] (some m) (some n)

/-- The texts one after the other with single spaces between them. -/
def Spaced : List Str → Str → Prop
  | [], t => t = []
  | [s], t => t = s
  | s :: rest, t => ∃ u, Spaced rest u ∧ t = s ++ " ".toList ++ u

/-! ### Proofs -/

theorem codeOf_legacy (n : String) (c : Nat) (h : (n, c) ∈ legacy) : codeOf n.toList = c := by
  have : ∀ p ∈ legacy, codeOf p.1.toList = p.2 := by decide +kernel
  exact this _ h

/-- **C136** (codes).  The code is the legacy code of the name; names without one have the code 0. -/
theorem code_partial (n : Str) :
    (∀ c, (String.ofList n, c) ∈ legacy → codeOf n = c) ∧
    ((∀ c, (String.ofList n, c) ∉ legacy) → codeOf n = 0) := by
  constructor
  · intro c h
    have := codeOf_legacy _ c h
    simpa using this
  · intro h
    have hk : n ∉ Dict.keys errorNames := by
      intro hm
      have hall : ∀ k ∈ Dict.keys errorNames, ∃ p ∈ legacy, p.1.toList = k := by decide +kernel
      obtain ⟨p, hp, he⟩ := hall n hm
      apply h p.2
      rw [← he]
      simpa using hp
    unfold codeOf
    rw [(Dict.get?_eq_none_iff _ _).2 hk]
    rfl

/-- **C136** is violated for the deprecated names, whose codes are constants of the class. -/
theorem code_deprecated_violated : ∀ p ∈ deprecated, codeOf p.1.toList ≠ p.2 := by decide +kernel

theorem joinSpace_spaced (l : List Str) : ∀ t, Spaced l t ↔ t = joinSpace l := by
  induction l with
  | nil => intro t; rfl
  | cons s l ih =>
    intro t
    cases l with
    | nil => rfl
    | cons r l =>
      show (∃ u, Spaced (r :: l) u ∧ t = s ++ " ".toList ++ u) ↔ t = s ++ ' ' :: joinSpace (r :: l)
      constructor
      · rintro ⟨u, hu, rfl⟩
        rw [ih] at hu
        subst hu
        simp
      · rintro rfl
        exact ⟨_, (ih _).2 rfl, by simp⟩

/-- **C136** An exception has the message given by keyword, or else its arguments separated by spaces; its
arguments are those given, or else the message; its name is that of its class, and for `DOMException` itself the one
given, or else `Error`; its code is that of the name. -/
theorem construct_spec {α : Type} (str : α → Str) (ofStr : Str → α) (cls : Str) (args : List α) (kw : Dict Str Str)
    (m n : Option Str) (hk : Keywords kw m n) :
    ∃ e, construct str ofStr cls args kw = .ok e ∧
      (∀ t, m = some t → t ≠ [] → e.message = t) ∧
      (m = none ∨ m = some [] → Spaced (args.map str) e.message) ∧
      (args ≠ [] → e.args = args) ∧
      (args = [] → e.message ≠ [] → e.args = [ofStr e.message]) ∧
      (args = [] → e.message = [] → e.args = []) ∧
      (cls ≠ "DOMException".toList → e.name = cls) ∧
      (cls = "DOMException".toList → n = none → e.name = "Error".toList) ∧
      (cls = "DOMException".toList → ∀ t, n = some t → e.name = t) ∧
      e.code = codeOf e.name := by
  have hne : kMessage ≠ kName := by decide
  rw [show "DOMException".toList = kBase from rfl, show "Error".toList = kError from rfl]
  have key : construct str ofStr cls args kw =
      (let message := if (m.getD []).length = 0 ∧ args.length > 0 then joinSpace (args.map str) else m.getD []
       let args := if args.length = 0 ∧ message.length > 0 then [ofStr message] else args
       let name := if cls ≠ kBase then cls else n.getD kError
       .ok ⟨message, name, codeOf name, args⟩) := by
    have e1 : "message".toList = kMessage := rfl
    have e2 : "name".toList = kName := rfl
    cases hk with
    | none => rfl
    | message m => rw [e1]; simp [construct, Dict.get?, Dict.del, hne, hne.symm]
    | name n => rw [e2]; simp [construct, Dict.get?, Dict.del, hne, hne.symm]
    | both m n => rw [e1, e2]; simp [construct, Dict.get?, Dict.del, hne, hne.symm]
    | both' m n => rw [e1, e2]; simp [construct, Dict.get?, Dict.del, hne, hne.symm]
  rw [key]
  refine ⟨_, rfl, ?_, ?_, ?_, ?_, ?_, ?_, ?_, ?_, rfl⟩
  · rintro t rfl ht
    have : t.length ≠ 0 := by simpa using ht
    simp only [Option.getD_some]
    rw [if_neg (fun h => this h.1)]
  · intro hm
    rw [joinSpace_spaced]
    have : m.getD [] = [] := by rcases hm with rfl | rfl <;> rfl
    simp only [this]
    cases args with
    | nil => simp [joinSpace]
    | cons a l => simp
  · intro ha
    simp only
    rw [if_neg]
    rintro ⟨h, _⟩
    exact ha (List.length_eq_zero_iff.1 h)
  · intro ha hm
    subst ha
    simp only at hm ⊢
    rw [if_pos ⟨rfl, List.length_pos_iff.2 hm⟩]
  · intro ha hm
    subst ha
    simp only at hm ⊢
    rw [if_neg]
    rintro ⟨_, h⟩
    rw [hm] at h
    exact absurd h (by decide)
  · intro hc
    simp only
    rw [if_pos hc]
  · rintro hc rfl
    simp only
    rw [if_neg (fun h => h hc)]
    rfl
  · rintro hc t rfl
    simp only
    rw [if_neg (fun h => h hc)]
    rfl

theorem mem_keys_del {α β : Type} [DecidableEq α] (d : Dict α β) (k a : α) (h : k ≠ a) (hk : k ∈ Dict.keys d) :
    k ∈ Dict.keys (d.del a) := by
  rw [Dict.keys_del]
  exact (List.mem_erase_of_ne h).2 hk

/-- **C136** Any other keyword argument is a `TypeError`. -/
theorem construct_keyword {α : Type} (str : α → Str) (ofStr : Str → α) (cls : Str) (args : List α) (kw : Dict Str Str)
    (hd : (Dict.keys kw).Nodup) (k : Str) (hk : k ∈ Dict.keys kw) (h1 : k ≠ "message".toList) (h2 : k ≠ "name".toList) :
    construct str ofStr cls args kw = .error .typeError := by
  have hm : k ∈ Dict.keys ((kw.del kMessage).del kName) :=
    mem_keys_del _ _ _ h2 (mem_keys_del _ _ _ h1 hk)
  have : ((kw.del kMessage).del kName).length > 0 := by
    have := List.length_pos_of_mem hm
    simpa [Dict.keys] using this
  unfold construct
  simp only
  rw [if_pos this]

/-- A refused attribute, with two arguments; a plain exception with a name; an unknown keyword. -/
example :
    construct id id "InUseAttributeError".toList ["a".toList, "b".toList] [] =
      .ok ⟨"a b".toList, "InUseAttributeError".toList, 10, ["a".toList, "b".toList]⟩ ∧
    construct id id "DOMException".toList [] [("name".toList, "SyntaxError".toList), ("message".toList, "x".toList)] =
      .ok ⟨"x".toList, "SyntaxError".toList, 12, ["x".toList]⟩ ∧
    (Dict.keys [("text".toList, "x".toList)]).Nodup := by
  refine ⟨by rfl, by rfl, by decide⟩

end SvgPy.DomError
