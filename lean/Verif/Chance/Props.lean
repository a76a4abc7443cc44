import Verif.Chance.Random
import Verif.Chance.Hits
import Verif.Chance.Cats
import Verif.Chance.Select
import Verif.Chance.Timer
/-! The properties of the random services: C43, C44, C45, C46, C60, C61. -/
