import Verif.Model.Cowell
import Verif.Model.CowellBack
import Verif.Model.Defaults
import Verif.Model.Dual
import Verif.Model.DualN
import Verif.Model.Gravity
import Verif.Model.KepEqu
import Verif.Model.Kepler
import Verif.Model.Lagrange
import Verif.Model.NDArray
import Verif.Model.NDVec
import Verif.Model.OrbElements
import Verif.Model.OrbIntegrals
import Verif.Model.PathCheck
import Verif.Model.Rev
import Verif.Model.RotMat
import Verif.Model.RungeKutta
import Verif.Model.StateTrans
import Verif.Model.UniFormulas
import Verif.Model.While
import Verif.FloatRun
import Verif.Props.C01
import Verif.Props.C02
import Verif.Props.C03
import Verif.Props.C04
import Verif.Props.C05
import Verif.Props.C07
import Verif.Props.C08
import Verif.Props.C10
import Verif.Props.C13
import Verif.Props.C14
import Verif.Props.C17
import Verif.Props.C18
import Verif.Props.C18b
import Verif.Props.C18c
import Verif.Props.C18d
import Verif.Props.C18e
import Verif.Props.C18f
import Verif.Props.C18g
import Verif.Props.C18h
import Verif.Props.C18i
import Verif.Props.C18j
import Verif.Props.C18k
import Verif.Props.C19
import Verif.Props.C21
import Verif.Props.C26
import Verif.Props.C27
import Verif.Props.C29
import Verif.Props.C30
import Verif.Props.C32
import Verif.Props.C36
import Verif.Props.C37
import Verif.Props.C40
import Verif.Props.C41
import Verif.Props.C42
import Verif.Props.C43
import Verif.Props.C45
import Verif.Props.C46
import Verif.Props.C46b
import Verif.Props.C47
import Verif.Props.C48
import Verif.Props.C48b
import Verif.Props.C48c
import Verif.Props.C49
import Verif.Props.C50
import Verif.Props.C52
import Verif.Props.C53
import Verif.Props.C54
import Verif.Props.C54b
import Verif.Props.C55
import Verif.Props.C55b
import Verif.Props.C55c
import Verif.Props.C55d
import Verif.Props.C56
import Verif.Props.C57
import Verif.Props.C57b
import Verif.Props.C57c
import Verif.Props.C58
import Verif.Props.C58b
import Verif.Props.C58c
import Verif.Props.C58d
import Verif.Props.C59
import Verif.Props.C59b
import Verif.Props.C60
import Verif.Props.C61
import Verif.Props.C62
import Verif.Props.C63
import Verif.Props.C63b
import Verif.Props.C63c
import Verif.Props.C63d
import Verif.Props.C63e
import Verif.Props.C63f
import Verif.Props.C63g
import Verif.Props.C63h
import Verif.Props.C64
import Verif.Props.C64b
import Verif.Props.C64c
import Verif.Props.C65
import Verif.Props.C66
import Verif.Props.C67
import Verif.Props.C67b
import Verif.Props.C67c
import Verif.Props.C67d
import Verif.Props.C67e
import Verif.Props.C68
import Verif.Props.C68b
import Verif.Props.C68c
import Verif.Props.C68d
import Verif.Props.C68e
import Verif.Props.C68f
import Verif.Props.C68g
import Verif.Props.C68h
import Verif.Props.C69
import Verif.Props.C69b
import Verif.Props.C69c
import Verif.Props.C69d
import Verif.Props.C69e
import Verif.Props.C70
import Verif.Props.C71
import Verif.Props.C71b
import Verif.Props.C72
import Verif.Props.C73
import Verif.Props.C74
import Verif.Props.C75
import Verif.Props.C76
import Verif.Props.C77
import Verif.Props.C78
import Verif.Props.C78b
import Verif.Props.C78c
import Verif.Props.C79
import Verif.Props.C79b
import Verif.Props.C80
import Verif.Props.C80b
import Verif.Props.C80c
import Verif.Props.C81
import Verif.Props.C82
import Verif.Props.C82b
import Verif.Props.C83
import Verif.Props.C83b
import Verif.Props.C83c
import Verif.Props.C83d
import Verif.Props.C83e
import Verif.Props.C83f
import Verif.Props.C84
import Verif.Props.C85
import Verif.Props.C86
import Verif.Props.C87
import Verif.Props.C88
import Verif.Props.C89
import Verif.Props.C90
import Verif.Props.C90b
import Verif.Props.C91
