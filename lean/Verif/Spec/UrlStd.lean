import Verif.Model.UrlStd
import Verif.Spec.Http

/-!
# Specification: URLs, and what browsers do with them
-/

namespace Pizauth

/-- URLs are read and written as the URL standard says. -/
structure UsesUrls (E : Env) (L : UrlStd.Lib) : Prop where
  parse : ∀ s, E.parseUrl s = UrlStd.parse L s
  render : ∀ u, E.renderUrl u = UrlStd.render u

/-- The libraries which are not spelled out give canonical results: international domains become ASCII domains in lower
case, addresses are digits with colons and dots, and the results stay what they are. -/
structure UrlStd.Lib.Canonical (L : UrlStd.Lib) : Prop where
  ascii : ∀ l d, L.toAscii l = some d → ∀ c ∈ d, c.toNat < 128
  again : ∀ l d, L.toAscii l = some d → if UrlStd.plain d then d.map Char.toLower = d else L.toAscii d = some d
  ipv6 : ∀ l a, L.ipv6 l = some a → L.ipv6 a = some a ∧ ∀ c ∈ a, UrlStd.hexDigit c ∨ c = ':' ∨ c = '.'

/-- A browser opens the URL with the text `t`: it connects to the host, by TLS for https (`sec`), and sends a `GET`
request for the path and the query, with host and port as the header `host`. -/
def BrowserGet (L : UrlStd.Lib) (t : String) (sec : Bool) (buf : Bytes) : Prop :=
  ∃ s r p, UrlStd.scheme (UrlStd.clean t.toList) = some (s, r) ∧ UrlStd.special L s r = some p ∧
    (s = "http".toList ∧ sec = false ∨ s = "https".toList ∧ sec = true) ∧
    GetRequest buf (p.path ++ UrlStd.marked '?' p.query) (p.host ++ UrlStd.portText p.port)

end Pizauth
