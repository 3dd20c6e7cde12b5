import Verif.Model.Ex

/-!
# Densities (`/repo/expreduce/resources/stats.m`)

The right sides of the rules for `PDF`, with the arguments filled in, as the parser makes them (`a/b` is `Times[a, Power[b, -1]]`, `-a` is `Times[-1, a]`, `Sqrt[a]` is `Power[a, 1/2]`); they are not evaluated.
-/

namespace Expreduce.Dn
open Expreduce Ex

def times (as : List Ex) : Ex := .expr (S "Times" :: as)
def plus (as : List Ex) : Ex := .expr (S "Plus" :: as)
def power (a b : Ex) : Ex := .expr [S "Power", a, b]
def over (a b : Ex) : Ex := times [a, power b (.int (-1))]
def neg (a : Ex) : Ex := times [.int (-1), a]
def sqrtOf (a : Ex) : Ex := power a (.rat 1 2)

/-- `PDF[NormalDistribution[mu_, sigma_], x_] := E^(-((-mu+x)^2/(2 sigma^2)))/(Sqrt[2 \[Pi]] sigma)` (`stats.m:18`). -/
def normalPdf (mu sigma x : Ex) : Ex :=
  over (power (S "E") (neg (over (power (plus [neg mu, x]) (.int 2)) (times [.int 2, power sigma (.int 2)])))) (times [sqrtOf (times [.int 2, S "Pi"]), sigma])

/-- The value for `x > 0` of `PDF[LogNormalDistribution[mu_, sigma_], x_]` (`stats.m:19`): `1/(E^((-mu + Log[x])^2/(2*sigma^2))*Sqrt[2*Pi]*sigma*x)`. -/
def logNormalBody (mu sigma x : Ex) : Ex :=
  over (.int 1) (times [power (S "E") (over (power (plus [neg mu, .expr [S "Log", x]]) (.int 2)) (times [.int 2, power sigma (.int 2)])),
    sqrtOf (times [.int 2, S "Pi"]), sigma, x])

/-- `Piecewise[{{..., x > 0}}, 0]` (`stats.m:19`). -/
def logNormalPdf (mu sigma x : Ex) : Ex :=
  .expr [S "Piecewise", .expr [S "List", .expr [S "List", logNormalBody mu sigma x, .expr [S "Greater", x, .int 0]]], .int 0]

end Expreduce.Dn
