import Verif.Spec.JsonRpcWire
import Verif.Proofs.JsonRpc
/-! Lemmas for C116. -/
namespace Verif.JsonRpc
open Verif

theorem names : ("id".toList : Text) = sId ∧ ("method".toList : Text) = sMethod ∧ ("params".toList : Text) = sParams ∧
    ("jsonrpc".toList : Text) = sJsonrpc ∧ ("2.0".toList : Text) = sVersion ∧ ("result".toList : Text) = sResult ∧ ("error".toList : Text) = sError :=
  ⟨rfl, rfl, rfl, rfl, rfl, rfl, rfl⟩

theorem json_fields (c : Call) : ∃ l, c.json = .obj l ∧ lookup l sId = c.id.map CallId.json ∧ lookup l sMethod = some (.str c.method) ∧
    lookup l sParams = some c.params := by
  have h1 : sId ≠ sMethod := by decide +kernel
  have h2 : sId ≠ sParams := by decide +kernel
  have h3 : sMethod ≠ sParams := by decide +kernel
  have h4 : sJsonrpc ≠ sId := by decide +kernel
  have h5 : sJsonrpc ≠ sMethod := by decide +kernel
  have h6 : sJsonrpc ≠ sParams := by decide +kernel
  refine ⟨_, rfl, ?_, ?_, ?_⟩ <;> cases c.id <;> simp [lookup, h1, h2, h3, h4, h5, h6, h1.symm, h2.symm, h3.symm]

theorem id_key (id : CallId) : id.json.key = some id.key := by cases id <;> rfl

/-- What is known of the response to a call with an id. -/
theorem answers_call {f : Procs} {c : Call} {id : CallId} {r} (hi : c.id = some id) (h : Answers f c.json r) :
    lookup r sJsonrpc = some (.str sVersion) ∧ lookup r sId = some id.json ∧
    match f c.method c.params with
    | .ok v => lookup r sResult = some v ∧ lookup r sError = none
    | .error e => lookup r sError = some e ∧ lookup r sResult = none := by
  obtain ⟨l, id', m, p, h1, h2, h3, h4, h5, h6, h7⟩ := h
  obtain ⟨l', g1, g2, g3, g4⟩ := json_fields c
  rw [g1] at h1
  injection h1 with h1
  subst h1
  simp only [names] at h2 h3 h4 h5 h6 h7
  rw [hi] at g2
  rw [g2] at h2
  rw [g3] at h3
  rw [g4] at h4
  injection h2 with h2
  injection h3 with h3
  injection h3 with h3
  injection h4 with h4
  subst h2 h3 h4
  exact ⟨h5, h6, h7⟩

theorem wants_json (c : Call) : wantsAnswer c.json = c.id.isSome := by
  obtain ⟨l, g1, g2, _, _⟩ := json_fields c
  rw [g1]
  simp only [wantsAnswer, names, g2]
  cases c.id <;> rfl

theorem pairwise_of_nodup_map {α β : Type} {g : α → β} {l : List α} (h : (l.map g).Nodup) : l.Pairwise (fun a b => g a ≠ g b) :=
  List.pairwise_map.1 h

/-- The id of a request. -/
def requestKey : Json → Option Key
  | .obj l => (lookup l sId).bind Json.key
  | _ => none

theorem requestKey_json (c : Call) : requestKey c.json = c.id.map CallId.key := by
  obtain ⟨l, g1, g2, _⟩ := json_fields c
  rw [g1]
  simp only [requestKey, g2]
  cases c.id with
  | none => rfl
  | some id => exact id_key id

theorem key_inj {a b : CallId} (h : a.key = b.key) : a = b := by
  cases a <;> cases b <;> simp_all [CallId.key] <;> omega

end Verif.JsonRpc
